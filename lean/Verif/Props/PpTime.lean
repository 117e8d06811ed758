import Verif.Model.PpTime
import Verif.Proofs.Count
/-!
# C77: times of batches
-/
namespace Verif.Props
open Verif Verif.PpTime

/-! ## Small facts -/

theorem addPP_pending (s : PpTime.State) (b : Bool) (pp : PP) : (addPP s b pp).pending = s.pending := rfl
theorem addPP_committed (s : PpTime.State) (b : Bool) (pp : PP) : (addPP s b pp).committed = s.committed := rfl
theorem addPP_stashed (s : PpTime.State) (b : Bool) (pp : PP) : (addPP s b pp).stashed = s.stashed := rfl
theorem addPP_tss (s : PpTime.State) (b : Bool) (pp : PP) : (addPP s b pp).tss = s.tss := rfl

theorem noteTime_eq (s : PpTime.State) (now : Nat) (pp : PP) (x : Node) :
    (noteTime s now pp x).last = s.last ∧ (noteTime s now pp x).pending = s.pending ∧
    (noteTime s now pp x).committed = s.committed ∧ (noteTime s now pp x).stashed = s.stashed ∧
    (noteTime s now pp x).waiting = s.waiting := by
  unfold noteTime; split <;> exact ⟨rfl, rfl, rfl, rfl, rfl⟩

theorem noteTime_requested (s : PpTime.State) (now : Nat) (pp : PP) (x : Node) : (noteTime s now pp x).requested = s.requested := by
  unfold noteTime; split <;> rfl

/-- Whether the PRE-PREPARE with the key was let through by PREPAREs. -/
def doneAt (s : PpTime.State) (k : PpTime.Key) : Bool :=
  match s.stashed.get? k with
  | none => false
  | some (_, _, done) => done

theorem timeAcceptable_eq (cfg : PpTime.Cfg) (s : PpTime.State) (pp : PP) (x : Node) :
    timeAcceptable cfg s pp x = (s.requested.contains pp.key || timeCorrect cfg s pp x || doneAt s pp.key) := rfl

/-- What a delivered PRE-PREPARE does to the batches and the last time. -/
theorem recv_cases (cfg : PpTime.Cfg) (s : PpTime.State) (now : Nat) (primary : Bool) (c : Checks) (pp : PP) (x : Node) :
    let r := PpTime.recv cfg s now primary c pp x
    r.committed = s.committed ∧
    (r.pending = s.pending ∧ (r.last = s.last ∨ c.admitted = true ∧ c.ordered = true ∧ primary = false ∧ r.last = some pp.time) ∨
     r.pending = s.pending ++ [pp.time] ∧ (primary = true ∧ r.last = s.last ∨ primary = false ∧ r.last = some pp.time) ∧
      c.ordered = false ∧ c.before = true ∧ c.after = true ∧
      (timeCorrect cfg (noteTime s now pp x) pp x = true ∨ doneAt s pp.key = true ∨ pp.key ∈ s.requested)) := by
  obtain ⟨h1, h2, h3, h4, h5⟩ := noteTime_eq s now pp x
  unfold PpTime.recv
  simp only
  split
  · exact ⟨h3, .inl ⟨h2, .inl h1⟩⟩
  · next hadm =>
    split
    · next ho =>
      refine ⟨by rw [addPP_committed, h3], .inl ⟨by rw [addPP_pending, h2], ?_⟩⟩
      cases primary with
      | true => left; simp [addPP, h1]
      | false => right; exact ⟨by simpa using hadm, ho, rfl, by simp [addPP]⟩
    · next ho =>
      split
      · exact ⟨h3, .inl ⟨h2, .inl h1⟩⟩
      · next hb =>
        split
        · exact ⟨h3, .inl ⟨h2, .inl h1⟩⟩
        · next ha =>
          split
          · exact ⟨h3, .inl ⟨h2, .inl h1⟩⟩
          · next hf =>
            refine ⟨by rw [addPP_committed]; exact h3, .inr ⟨by rw [addPP_pending]; simp only [h2], ?_, by simpa using ho, by simpa using hb, by simpa using hf, ?_⟩⟩
            · cases primary with
              | true => left; simp [addPP, h1]
              | false => right; simp [addPP]
            · have ha' : timeAcceptable cfg (noteTime s now pp x) pp x = true := by simpa using ha
              rw [timeAcceptable_eq, Bool.or_eq_true, Bool.or_eq_true, noteTime_requested] at ha'
              rcases ha' with (h | h) | h
              · right; right; simpa using h
              · left; exact h
              · right; left
                unfold doneAt at h ⊢
                rw [h4] at h; exact h

/-- What asking for the PRE-PREPARE of a PREPARE does. -/
theorem requestForPrepare_cases (cfg : PpTime.Cfg) (s : PpTime.State) (c : Checks) (k : PpTime.Key) :
    PpTime.requestForPrepare cfg s c k = s ∨
    PpTime.requestForPrepare cfg s c k = { s with requested := s.requested ++ [k] } ∧
      (Quorums.ofN cfg.n).prepare.value ≤ ((s.waiting.get? k).getD []).length := by
  unfold PpTime.requestForPrepare
  split
  · next h => right; rw [Bool.and_eq_true] at h; exact ⟨rfl, of_decide_eq_true h.2⟩
  · left; rfl

/-- A PREPARE that lets no PRE-PREPARE through changes neither batches nor the last time;
one that does delivers the stashed one. -/
theorem enqueue_cases (cfg : PpTime.Cfg) (s : PpTime.State) (now : Nat) (primary : Bool) (c : Checks) (k : PpTime.Key) (time : Nat) (x : Node) :
    let w := { s with waiting := s.waiting.set k (((s.waiting.get? k).getD []) ++ [(time, x)]) }
    enqueue cfg s now primary c k time x = w ∨
    enqueue cfg s now primary c k time x = { w with requested := s.requested ++ [k] } ∧
      (Quorums.ofN cfg.n).prepare.value ≤ ((s.waiting.get? k).getD []).length + 1 ∨
    ∃ pp y, s.stashed.get? k = some (pp, y, false) ∧
      enqueue cfg s now primary c k time x =
        PpTime.recv cfg { w with stashed := s.stashed.set k (pp, y, true) } now primary c pp y ∧
      (Quorums.ofN cfg.n).timestamp.isReached (maxCount ((((s.waiting.get? k).getD []) ++ [(time, x)]).map Prod.fst)) = true := by
  intro w
  unfold enqueue
  simp only
  split
  · unfold retry
    simp only [Dict.get?_set, if_pos]
    split
    · next hq =>
      rw [Bool.and_eq_true] at hq
      cases hst : s.stashed.get? k with
      | none => left; rfl
      | some v =>
        obtain ⟨pp, y, d⟩ := v
        cases d with
        | true => left; rfl
        | false =>
          right; right
          exact ⟨pp, y, rfl, rfl, by simpa using hq.2⟩
    · left; rfl
  · rcases requestForPrepare_cases cfg w c k with h | ⟨h, hq⟩
    · left; exact h
    · right; left; exact ⟨h, by simpa [w, Dict.get?_set] using hq⟩

/-! ## Times do not go backwards -/

/-- Whether the time of a PRE-PREPARE is let through against the last one. -/
def goesBack (s : PpTime.State) (pp : PP) : Prop := behind s.last pp.time = true

/-- The events for which the code keeps times in order. Excluded are: processing PRE-PREPAREs
of ordered batches, or of old views on the new primary; PRE-PREPAREs behind the last time let
through by PREPAREs or because they were asked for; and batches brought by a catchup. -/
def Regular (s : PpTime.State) : Event → Prop
  | .recv _ primary c pp _ => primary = false ∧ c.ordered = false ∧ (doneAt s pp.key = true ∨ pp.key ∈ s.requested → ¬ goesBack s pp)
  | .prepare _ primary c k _ _ => primary = false ∧ c.ordered = false ∧ ∀ pp y d, s.stashed.get? k = some (pp, y, d) → pp.key = k ∧ ¬ goesBack s pp
  | .create _ _ => True
  | .commit => True
  | .missing _ => True
  | .forget _ => True
  | .viewChange => True
  | .catchup times => times = []
  | .restart => True

/-- Every event of the run is regular when it happens. -/
def RegularRun (cfg : PpTime.Cfg) : PpTime.State → List Event → Prop
  | _, [] => True
  | s, e :: es => Regular s e ∧ RegularRun cfg (PpTime.step cfg s e) es

/-- The invariant: times in order, the last one not above the remembered one. -/
structure PtInv (s : PpTime.State) : Prop where
  sorted : s.chain.Pairwise (· ≤ ·)
  last : ∀ t, s.chain.getLast? = some t → ∃ l, s.last = some l ∧ t ≤ l

theorem pairwise_snoc {l : List Nat} {t : Nat} (h : l.Pairwise (· ≤ ·)) (ht : ∀ u, l.getLast? = some u → u ≤ t) :
    (l ++ [t]).Pairwise (· ≤ ·) := by
  rw [List.pairwise_append]
  refine ⟨h, List.pairwise_singleton _ _, fun a ha b hb => ?_⟩
  rw [List.mem_singleton] at hb
  subst hb
  cases hl : l.getLast? with
  | none => rw [List.getLast?_eq_none_iff] at hl; subst hl; simp at ha
  | some u =>
    obtain ⟨l', rfl⟩ := List.getLast?_eq_some_iff.1 hl
    have hu := ht u hl
    rw [List.pairwise_append] at h
    rcases List.mem_append.1 ha with ha | ha
    · exact Nat.le_trans (h.2.2 a ha u (by simp)) hu
    · rw [List.mem_singleton] at ha; subst ha; exact hu

theorem PtInv.snoc {s r : PpTime.State} (h : PtInv s) {t : Nat} (hc : r.chain = s.chain ++ [t]) (hl : r.last = some t)
    (hb : ∀ l, s.last = some l → l ≤ t) : PtInv r := by
  refine ⟨?_, fun u hu => ⟨t, hl, ?_⟩⟩
  · rw [hc]
    refine pairwise_snoc h.sorted fun u hu => ?_
    obtain ⟨l, h1, h2⟩ := h.last u hu
    exact Nat.le_trans h2 (hb l h1)
  · rw [hc, List.getLast?_concat] at hu; cases hu; exact Nat.le_refl _

theorem PtInv.same {s r : PpTime.State} (h : PtInv s) (hc : r.chain = s.chain) (hl : r.last = s.last) : PtInv r :=
  ⟨hc ▸ h.sorted, fun t ht => hl ▸ h.last t (hc ▸ ht)⟩

theorem PtInv.rev {s r : PpTime.State} (h : PtInv s) (hc : r.committed = s.committed) (hp : r.pending = [])
    (hl : r.last = s.committed.getLast?) : PtInv r := by
  have hch : r.chain = s.committed := by simp [PpTime.State.chain, hc, hp]
  refine ⟨?_, fun t ht => ⟨t, ?_, Nat.le_refl _⟩⟩
  · rw [hch]
    have := h.sorted
    unfold PpTime.State.chain at this
    exact (List.pairwise_append.1 this).1
  · rw [hch] at ht; rw [hl, ht]

theorem not_behind {last : Option Nat} {t : Nat} (h : behind last t ≠ true) : ∀ l, last = some l → l ≤ t := by
  intro l hl
  subst hl
  simpa [behind] using h

theorem timeCorrect_not_behind {cfg : PpTime.Cfg} {s : PpTime.State} {pp : PP} {x : Node} (h : timeCorrect cfg s pp x = true) :
    behind s.last pp.time ≠ true := by
  intro hb
  simp [timeCorrect, hb] at h

theorem PtInv.recv {s : PpTime.State} (h : PtInv s) (cfg : PpTime.Cfg) (now : Nat) (c : Checks) (pp : PP) (x : Node)
    (ho : c.ordered = false) (hd : doneAt s pp.key = true ∨ pp.key ∈ s.requested → ¬ goesBack s pp) :
    PtInv (PpTime.recv cfg s now false c pp x) := by
  obtain ⟨hc, hr⟩ := recv_cases cfg s now false c pp x
  rcases hr with ⟨hp, hl⟩ | ⟨hp, hl, _, _, _, hok⟩
  · refine h.same (by simp only [PpTime.State.chain, hc, hp]) ?_
    rcases hl with hl | ⟨_, h2, _⟩
    · exact hl
    · rw [ho] at h2; cases h2
  · have hl' : (PpTime.recv cfg s now false c pp x).last = some pp.time := by
      rcases hl with ⟨h1, _⟩ | ⟨_, h2⟩
      · cases h1
      · exact h2
    refine h.snoc (t := pp.time) (by simp only [PpTime.State.chain, hc, hp, List.append_assoc]) hl' ?_
    refine not_behind ?_
    rcases hok with hok | hok
    · have := timeCorrect_not_behind hok
      rwa [(noteTime_eq s now pp x).1] at this
    · exact hd hok

theorem PtInv.step {s : PpTime.State} (h : PtInv s) (cfg : PpTime.Cfg) (e : Event) (hr : Regular s e) : PtInv (PpTime.step cfg s e) := by
  cases e with
  | recv now primary c pp x =>
    obtain ⟨h1, h2, h3⟩ := hr
    subst h1
    exact h.recv cfg now c pp x h2 h3
  | prepare now primary c k time x =>
    obtain ⟨h1, h2, h3⟩ := hr
    subst h1
    show PtInv (enqueue cfg s now false c k time x)
    rcases enqueue_cases cfg s now false c k time x with hq | ⟨hq, _⟩ | ⟨pp, y, hst, hq, _⟩
    · rw [hq]; exact h.same rfl rfl
    · rw [hq]; exact h.same rfl rfl
    · rw [hq]
      obtain ⟨hk, hg⟩ := h3 pp y false hst
      refine PtInv.recv ?_ cfg now c pp y h2 fun _ => hg
      exact h.same rfl rfl
  | create now stored =>
    show PtInv (PpTime.create s now stored)
    unfold PpTime.create
    simp only
    refine h.snoc (t := createTime (restoreLast s.last stored) now) ?_ rfl ?_
    · simp only [PpTime.State.chain, List.append_assoc]
    · intro l hl
      simp only [restoreLast, hl, createTime]
      split
      · exact Nat.le_refl _
      · next hn => exact Nat.le_of_not_lt hn
  | commit =>
    show PtInv (PpTime.commit s)
    unfold PpTime.commit
    split
    · exact h
    · next t ts hp => exact h.same (by simp [PpTime.State.chain, hp]) rfl
  | missing ks => exact h.same rfl rfl
  | forget ks => exact h.same rfl rfl
  | viewChange => exact h.rev rfl rfl rfl
  | catchup times =>
    have : times = [] := hr
    subst this
    exact h.rev (by simp [PpTime.step, revert]) rfl rfl
  | restart => exact h.rev rfl rfl rfl

theorem PtInv.run {cfg : PpTime.Cfg} (es : List Event) : ∀ {s : PpTime.State}, PtInv s → RegularRun cfg s es → PtInv (PpTime.run cfg s es) := by
  induction es with
  | nil => intro s h _; exact h
  | cons e es ih => intro s h hr; exact ih (h.step cfg e hr.1) hr.2

/-- **C77**, in part. The times of the batches of a replica, committed ones and not, never
decrease, in every run whose events are regular: see there for what is excluded, and
`new_primary_time_back`, `caught_up_time_back`, `replayed_time_back`, `copies_of_one_prepare`
and `asked_for_any_time` for why. -/
theorem batch_times_sorted_partial (cfg : PpTime.Cfg) (es : List Event) (hr : RegularRun cfg {} es) :
    (PpTime.run cfg {} es).chain.Pairwise (· ≤ ·) :=
  (PtInv.run es ⟨List.Pairwise.nil, fun t h => by simp [PpTime.State.chain] at h⟩ hr).sorted

/-! ## Times are near the clock -/

/-- An event at time `t` that delivers a PRE-PREPARE with the key. -/
def deliveredAt (t : Nat) (k : PpTime.Key) : Event → Prop
  | .recv now _ _ pp _ => now = t ∧ pp.key = k
  | .prepare now _ _ j _ _ => now = t ∧ j = k
  | _ => False

/-- An event that is a PREPARE with the key and the time. -/
def prepareOf (k : PpTime.Key) (time : Nat) : Event → Bool
  | .prepare _ _ _ j u _ => decide (j = k) && decide (u = time)
  | _ => false

/-- The number of PREPAREs with the key and the time that have come. -/
def prepares (es : List Event) (k : PpTime.Key) (time : Nat) : Nat := (es.filter (prepareOf k time)).length

theorem prepares_snoc (es : List Event) (e : Event) (k : PpTime.Key) (time : Nat) :
    prepares (es ++ [e]) k time = prepares es k time + if prepareOf k time e then 1 else 0 := by
  unfold prepares
  rw [List.filter_append, List.length_append, List.filter_cons, List.filter_nil]
  split <;> simp_all

/-- An event that is a PREPARE with the key. -/
def prepareFor (k : PpTime.Key) : Event → Bool
  | .prepare _ _ _ j _ _ => decide (j = k)
  | _ => false

/-- The number of PREPAREs with the key that have come. -/
def preparesFor (es : List Event) (k : PpTime.Key) : Nat := (es.filter (prepareFor k)).length

theorem preparesFor_snoc (es : List Event) (e : Event) (k : PpTime.Key) :
    preparesFor (es ++ [e]) k = preparesFor es k + if prepareFor k e then 1 else 0 := by
  unfold preparesFor
  rw [List.filter_append, List.length_append, List.filter_cons, List.filter_nil]
  split <;> simp_all

/-- There was a reason to ask for the PRE-PREPARE with the key: a later one has come, or
`n - f - 1` PREPAREs for it have. -/
def reasonToAsk (cfg : PpTime.Cfg) (es : List Event) (k : PpTime.Key) : Prop :=
  (∃ ks, Event.missing ks ∈ es ∧ k ∈ ks) ∨ cfg.n - getMaxFailures cfg.n - 1 ≤ preparesFor es k

theorem reasonToAsk.mono {cfg : PpTime.Cfg} {es : List Event} {k : PpTime.Key} (h : reasonToAsk cfg es k) (e : Event) :
    reasonToAsk cfg (es ++ [e]) k := by
  rcases h with ⟨ks, h1, h2⟩ | h
  · exact .inl ⟨ks, List.mem_append_left _ h1, h2⟩
  · right; rw [preparesFor_snoc]; omega

/-- What the remembered times and PREPAREs stand for. -/
structure PnInv (cfg : PpTime.Cfg) (es : List Event) (s : PpTime.State) : Prop where
  tss : ∀ k a x t, s.tss.get? (k, a, x) = some t → ∃ e ∈ es, deliveredAt t k e
  key : ∀ k pp x d, s.stashed.get? k = some (pp, x, d) → pp.key = k
  waiting : ∀ k time, (((s.waiting.get? k).getD []).map Prod.fst).count time ≤ prepares es k time
  done : ∀ k, doneAt s k = true → ∃ time, (Quorums.ofN cfg.n).timestamp.value ≤ prepares es k time
  number : ∀ k, ((s.waiting.get? k).getD []).length ≤ preparesFor es k
  requested : ∀ k ∈ s.requested, reasonToAsk cfg es k

theorem maxCount_reached {l : List Nat} {q : Nat} (hq : 0 < q) (h : q ≤ maxCount l) : ∃ t, q ≤ l.count t := by
  unfold maxCount at h
  have main : ∀ (m : List Nat) (a : Nat), (m.map (fun b => l.count b)).foldl max a = a ∨
      ∃ t ∈ m, (m.map (fun b => l.count b)).foldl max a = l.count t := by
    intro m
    induction m with
    | nil => intro a; left; rfl
    | cons x m ih =>
      intro a
      simp only [List.map_cons, List.foldl_cons]
      rcases ih (max a (l.count x)) with h | ⟨t, ht, h⟩
      · rcases Nat.le_total a (l.count x) with hle | hle
        · right; exact ⟨x, List.mem_cons_self, by rw [h, Nat.max_eq_right hle]⟩
        · left; rw [h, Nat.max_eq_left hle]
      · right; exact ⟨t, List.mem_cons_of_mem _ ht, h⟩
  rcases main l 0 with h0 | ⟨t, _, ht⟩
  · omega
  · exact ⟨t, ht ▸ h⟩

theorem PnInv.mono {cfg : PpTime.Cfg} {es : List Event} {s : PpTime.State} (h : PnInv cfg es s) (e : Event) : PnInv cfg (es ++ [e]) s := by
  have hp : ∀ k t, prepares es k t ≤ prepares (es ++ [e]) k t := fun k t => by rw [prepares_snoc]; omega
  refine ⟨fun k a x t ht => ?_, h.key, fun k t => Nat.le_trans (h.waiting k t) (hp k t), fun k hk => ?_,
    fun k => Nat.le_trans (h.number k) (by rw [preparesFor_snoc]; omega), fun k hk => (h.requested k hk).mono e⟩
  · obtain ⟨e', he, hd⟩ := h.tss k a x t ht
    exact ⟨e', List.mem_append_left _ he, hd⟩
  · obtain ⟨t, ht⟩ := h.done k hk
    exact ⟨t, Nat.le_trans ht (hp k t)⟩

theorem PnInv.addPP {cfg : PpTime.Cfg} {es : List Event} {s : PpTime.State} (h : PnInv cfg es s) (b : Bool) (pp : PP) : PnInv cfg es (addPP s b pp) := by
  refine ⟨h.tss, h.key, fun k t => ?_, h.done, fun k => ?_, h.requested⟩
  · show (((Dict.get? (s.waiting.erase pp.key) k).getD []).map Prod.fst).count t ≤ _
    rw [Dict.get?_erase]
    split
    · simp
    · exact h.waiting k t
  · show ((Dict.get? (s.waiting.erase pp.key) k).getD []).length ≤ _
    rw [Dict.get?_erase]
    split
    · simp
    · exact h.number k

theorem PnInv.recv {cfg : PpTime.Cfg} {es : List Event} {s : PpTime.State} (h : PnInv cfg es s) {now : Nat} {pp : PP}
    (hd : ∃ e ∈ es, deliveredAt now pp.key e) (primary : Bool) (c : Checks) (x : Node) :
    PnInv cfg es (PpTime.recv cfg s now primary c pp x) := by
  have hn : PnInv cfg es (noteTime s now pp x) := by
    unfold noteTime
    split
    · exact h
    · refine ⟨fun k a y t ht => ?_, h.key, h.waiting, h.done, h.number, h.requested⟩
      rw [Dict.get?_set] at ht
      split at ht
      · next e => cases ht; cases e; exact hd
      · exact h.tss k a y t ht
  unfold PpTime.recv
  simp only
  split
  · exact hn
  · split
    · exact hn.addPP _ _
    · split
      · exact hn
      · split
        · refine ⟨hn.tss, fun k p y d hk => ?_, hn.waiting, fun k hk => ?_, hn.number, hn.requested⟩
          · rw [Dict.get?_set] at hk
            split at hk
            · next e => cases hk; exact e
            · exact hn.key k p y d hk
          · refine hn.done k ?_
            unfold doneAt at hk ⊢
            simp only [Dict.get?_set] at hk
            split at hk
            · cases hk
            · next h2 =>
              split at h2
              · cases h2; cases hk
              · rw [h2]; exact hk
        · split
          · exact hn
          · exact PnInv.addPP (s := { noteTime s now pp x with pending := (noteTime s now pp x).pending ++ [pp.time] })
              ⟨hn.tss, hn.key, hn.waiting, hn.done, hn.number, hn.requested⟩ _ _

theorem PnInv.enqueue {cfg : PpTime.Cfg} {es : List Event} {s : PpTime.State} (h : PnInv cfg es s)
    (now : Nat) (primary : Bool) (c : Checks) (k : PpTime.Key) (time : Nat) (x : Node) :
    PnInv cfg (es ++ [.prepare now primary c k time x]) (enqueue cfg s now primary c k time x) := by
  have hm := h.mono (.prepare now primary c k time x)
  have hw : ∀ j t, ((((s.waiting.set k (((s.waiting.get? k).getD []) ++ [(time, x)])).get? j).getD []).map Prod.fst).count t ≤
      prepares (es ++ [.prepare now primary c k time x]) j t := by
    intro j t
    rw [Dict.get?_set]
    split
    · next e =>
      subst e
      rw [prepares_snoc]
      have := h.waiting k t
      simp only [Option.getD_some, List.map_append, List.map_cons, List.map_nil, List.count_append, prepareOf]
      by_cases ht : time = t
      · subst ht; simp; exact this
      · simp [ht]; exact this
    · exact hm.waiting j t
  have hnum : ∀ j, ((((s.waiting.set k (((s.waiting.get? k).getD []) ++ [(time, x)])).get? j).getD []).length) ≤
      preparesFor (es ++ [.prepare now primary c k time x]) j := by
    intro j
    rw [Dict.get?_set]
    split
    · next e =>
      subst e
      rw [preparesFor_snoc]
      have := h.number k
      simpa [prepareFor] using this
    · exact hm.number j
  have hwait : PnInv cfg (es ++ [.prepare now primary c k time x])
      { s with waiting := s.waiting.set k (((s.waiting.get? k).getD []) ++ [(time, x)]) } := ⟨hm.tss, hm.key, hw, hm.done, hnum, hm.requested⟩
  rcases enqueue_cases cfg s now primary c k time x with hq | ⟨hq, hr⟩ | ⟨pp, y, hst, hq, hr⟩
  · rw [hq]; exact hwait
  · rw [hq]
    refine ⟨hm.tss, hm.key, hw, hm.done, hnum, fun j hj => ?_⟩
    rcases List.mem_append.1 hj with hj | hj
    · exact hm.requested j hj
    · rw [List.mem_singleton] at hj
      subst hj
      right
      have := h.number j
      rw [preparesFor_snoc]
      simp only [Quorums.ofN] at hr
      simp only [prepareFor, decide_true, if_true]
      omega
  · rw [hq]
    have hk := h.key k pp y false hst
    have hdel : ∃ e ∈ es ++ [Event.prepare now primary c k time x], deliveredAt now pp.key e :=
      ⟨.prepare now primary c k time x, List.mem_append_right _ (List.mem_singleton.2 rfl), (⟨rfl, hk.symm⟩ : now = now ∧ k = pp.key)⟩
    refine PnInv.recv ?_ hdel _ _ _
    refine ⟨hm.tss, fun j p z d hj => ?_, hw, fun j hj => ?_, hnum, hm.requested⟩
    · rw [Dict.get?_set] at hj
      split at hj
      · next e => cases hj; rw [← e]; exact hk
      · exact h.key j p z d hj
    · by_cases e : k = j
      · subst e
        have hr' : (Quorums.ofN cfg.n).timestamp.value ≤ maxCount ((((s.waiting.get? k).getD []) ++ [(time, x)]).map Prod.fst) := by
          simpa [Quorum.isReached] using hr
        obtain ⟨t, ht⟩ := maxCount_reached (by simp [Quorums.ofN]) hr'
        have := hw k t
        rw [Dict.get?_set, if_pos rfl] at this
        exact ⟨t, Nat.le_trans ht this⟩
      · refine hm.done j ?_
        unfold doneAt at hj ⊢
        simpa only [Dict.get?_set, if_neg e] using hj

theorem PnInv.run (cfg : PpTime.Cfg) (es : List Event) : PnInv cfg es (PpTime.run cfg {} es) := by
  induction es using snoc_induction with
  | nil => exact ⟨fun k a x t h => by simp [PpTime.run] at h, fun k p x d h => by simp [PpTime.run] at h,
      fun k t => by simp [PpTime.run], fun k h => by simp [doneAt, PpTime.run] at h,
      fun k => by simp [PpTime.run], fun k h => by simp [PpTime.run] at h⟩
  | snoc es e ih =>
    unfold PpTime.run
    rw [List.foldl_append]
    show PnInv cfg (es ++ [e]) (PpTime.step cfg (PpTime.run cfg {} es) e)
    have hm := ih.mono e
    cases e with
    | recv now primary c pp x =>
      exact hm.recv ⟨_, List.mem_append_right _ (List.mem_singleton.2 rfl), ⟨rfl, rfl⟩⟩ _ _ _
    | prepare now primary c k time x => exact ih.enqueue now primary c k time x
    | create now stored => exact ⟨hm.tss, hm.key, hm.waiting, hm.done, hm.number, hm.requested⟩
    | commit =>
      show PnInv cfg _ (PpTime.commit _)
      unfold PpTime.commit
      split
      · exact hm
      · exact ⟨hm.tss, hm.key, hm.waiting, hm.done, hm.number, hm.requested⟩
    | missing ks =>
      refine ⟨hm.tss, hm.key, hm.waiting, hm.done, hm.number, fun k hk => ?_⟩
      rcases List.mem_append.1 hk with hk | hk
      · exact hm.requested k hk
      · exact .inl ⟨ks, List.mem_append_right _ (List.mem_singleton.2 rfl), hk⟩
    | forget ks =>
      exact ⟨hm.tss, hm.key, hm.waiting, hm.done, hm.number, fun k hk => hm.requested k (List.mem_filter.1 hk).1⟩
    | viewChange => exact ⟨fun k a x t h => by simp [PpTime.step] at h, hm.key, hm.waiting, hm.done, hm.number,
        fun k hk => by simp [PpTime.step] at hk⟩
    | catchup times => exact ⟨hm.tss, hm.key, hm.waiting, hm.done, hm.number, hm.requested⟩
    | restart => exact ⟨fun k a x t h => by simp [PpTime.step, revert] at h, fun k p x d h => by simp [PpTime.step, revert] at h,
        fun k t => by simp [PpTime.step, revert], fun k h => by simp [doneAt, PpTime.step, revert] at h,
        fun k => by simp [PpTime.step, revert], fun k hk => by simp [PpTime.step, revert] at hk⟩

/-- **C77**, near the clock, in part. If a PRE-PREPARE that arrives is accepted as a batch, then its
time is not behind the last one and at most the allowed deviation away from the clock when
a PRE-PREPARE with its key was delivered; or at least `f + 1` PREPAREs for its key, with
one time, have come; or there was a reason to ask for it, see `asked_for_any_time`. -/
theorem accepted_time_near_partial (cfg : PpTime.Cfg) (es : List Event) (now : Nat) (primary : Bool) (c : Checks) (pp : PP) (x : Node)
    (hacc : (PpTime.run cfg {} (es ++ [.recv now primary c pp x])).pending ≠ (PpTime.run cfg {} es).pending) :
    (PpTime.run cfg {} (es ++ [.recv now primary c pp x])).pending = (PpTime.run cfg {} es).pending ++ [pp.time] ∧
    ((∀ l, (PpTime.run cfg {} es).last = some l → l ≤ pp.time) ∧
      (∃ t, (∃ e ∈ es ++ [.recv now primary c pp x], deliveredAt t pp.key e) ∧
        pp.time ≤ t + cfg.dev ∧ t ≤ pp.time + cfg.dev) ∨
     (∃ time, getMaxFailures cfg.n + 1 ≤ prepares es pp.key time) ∨
     reasonToAsk cfg es pp.key) := by
  have hrun : PpTime.run cfg {} (es ++ [.recv now primary c pp x]) = PpTime.recv cfg (PpTime.run cfg {} es) now primary c pp x := by
    unfold PpTime.run; rw [List.foldl_append]; rfl
  rw [hrun] at hacc ⊢
  have hn := PnInv.run cfg es
  have hn2 := PnInv.run cfg (es ++ [.recv now primary c pp x])
  obtain ⟨_, hr⟩ := recv_cases cfg (PpTime.run cfg {} es) now primary c pp x
  rcases hr with ⟨hp, _⟩ | ⟨hp, _, _, _, _, hok⟩
  · exact absurd hp hacc
  · refine ⟨hp, ?_⟩
    rcases hok with hok | hok | hok
    · left
      refine ⟨not_behind (by have := timeCorrect_not_behind hok; rwa [(noteTime_eq _ now pp x).1] at this), ?_⟩
      unfold timeCorrect at hok
      split at hok
      · cases hok
      · split at hok
        · cases hok
        · next t ht =>
          refine ⟨t, ?_, ?_⟩
          · unfold noteTime at ht
            split at ht
            · obtain ⟨e, he, hd⟩ := hn.tss _ _ _ _ ht
              exact ⟨e, List.mem_append_left _ he, hd⟩
            · simp only [Dict.get?_set, if_pos] at ht
              cases ht
              exact ⟨.recv now primary c pp x, List.mem_append_right _ (List.mem_singleton.2 rfl), (⟨rfl, rfl⟩ : now = now ∧ pp.key = pp.key)⟩
          · have := of_decide_eq_true hok
            unfold dist at this
            omega
    · right; left
      exact hn.done _ hok
    · right; right
      exact hn.requested _ hok

/-- A batch accepted when a PREPARE arrives is accepted on the word of `f + 1` PREPAREs for
its key, with one time. -/
theorem accepted_by_prepares (cfg : PpTime.Cfg) (es : List Event) (now : Nat) (primary : Bool) (c : Checks) (k : PpTime.Key) (u : Nat) (x : Node)
    (hacc : (PpTime.run cfg {} (es ++ [.prepare now primary c k u x])).pending ≠ (PpTime.run cfg {} es).pending) :
    ∃ pp y, (PpTime.run cfg {} es).stashed.get? k = some (pp, y, false) ∧ pp.key = k ∧
      (PpTime.run cfg {} (es ++ [.prepare now primary c k u x])).pending = (PpTime.run cfg {} es).pending ++ [pp.time] ∧
      ∃ time, getMaxFailures cfg.n + 1 ≤ prepares (es ++ [.prepare now primary c k u x]) k time := by
  have hrun : PpTime.run cfg {} (es ++ [.prepare now primary c k u x]) = enqueue cfg (PpTime.run cfg {} es) now primary c k u x := by
    unfold PpTime.run; rw [List.foldl_append]; rfl
  have hn := PnInv.run cfg es
  have hn2 := PnInv.run cfg (es ++ [.prepare now primary c k u x])
  rw [hrun] at hacc hn2 ⊢
  rcases enqueue_cases cfg (PpTime.run cfg {} es) now primary c k u x with hq | ⟨hq, _⟩ | ⟨pp, y, hst, hq, hr⟩
  · rw [hq] at hacc; exact absurd rfl hacc
  · rw [hq] at hacc; exact absurd rfl hacc
  · refine ⟨pp, y, hst, hn.key k pp y false hst, ?_⟩
    rw [hq] at hacc ⊢
    obtain ⟨_, hcase⟩ := recv_cases cfg { (PpTime.run cfg {} es) with
        waiting := (PpTime.run cfg {} es).waiting.set k ((((PpTime.run cfg {} es).waiting.get? k).getD []) ++ [(u, x)]),
        stashed := (PpTime.run cfg {} es).stashed.set k (pp, y, true) } now primary c pp y
    rcases hcase with ⟨hp, _⟩ | ⟨hp, _⟩
    · exact absurd hp hacc
    · refine ⟨hp, ?_⟩
      have hr' : (Quorums.ofN cfg.n).timestamp.value ≤
          maxCount (((((PpTime.run cfg {} es).waiting.get? k).getD []) ++ [(u, x)]).map Prod.fst) := by
        simpa [Quorum.isReached] using hr
      obtain ⟨t, ht⟩ := maxCount_reached (by simp [Quorums.ofN]) hr'
      refine ⟨t, Nat.le_trans ht ?_⟩
      rw [prepares_snoc, List.map_append, List.count_append]
      have := hn.waiting k t
      have h2 : (List.map Prod.fst [(u, x)]).count t ≤ if prepareOf k t (.prepare now primary c k u x) then 1 else 0 := by
        by_cases e : u = t
        · subst e; simp [prepareOf]
        · simp [prepareOf, e]
      omega

/-! ## The batches of an honest primary are accepted -/

/-- All other checks pass. -/
def allGood : Checks := { admitted := true, ordered := false, before := true, after := true, ask := true }

/-- The time of a batch made at time `a` after one with time `m` (0 for none). -/
def batchTime (m a : Nat) : Nat := max m a

/-- The primary makes a batch for each `(a, b)`, at its time `a`; a replica receives it when
its own clock shows `b`. Batches are numbered from `seq`, `x` is the primary. -/
def primaryRun (cfg : PpTime.Cfg) (view : Nat) (x : Node) : Nat → PpTime.State × PpTime.State → List (Nat × Nat) → PpTime.State × PpTime.State
  | _, ss, [] => ss
  | seq, (p, r), (a, b) :: rest =>
    let p' := PpTime.step cfg p (.create a none)
    match p'.pending.getLast? with
    | none => (p', r)
    | some t => primaryRun cfg view x (seq + 1) (p', PpTime.step cfg r (.recv b false allGood ⟨(view, seq), t, seq⟩ x)) rest

/-- The clocks of the two are near each other: the time of no batch, which is the latest the
primary's clock has shown so far, is further than the deviation from the time of receipt. -/
def near (dev : Nat) : Nat → List (Nat × Nat) → Prop
  | _, [] => True
  | m, (a, b) :: rest => batchTime m a ≤ b + dev ∧ b ≤ batchTime m a + dev ∧ near dev (batchTime m a) rest

/-- **C77**, acceptance. A primary and a replica that have the same batches and the same last
time: whatever the clocks show, as long as they are near, the replica accepts all the
batches the primary makes. -/
theorem primary_batches_accepted (cfg : PpTime.Cfg) (view : Nat) (x : Node) (rounds : List (Nat × Nat)) :
    ∀ (seq m : Nat) (p r : PpTime.State), p.last = r.last → p.chain = r.chain → p.last.getD 0 = m →
      (∀ a s, seq ≤ s → r.tss.get? ((view, s), a, x) = none) → near cfg.dev m rounds →
      let q := primaryRun cfg view x seq (p, r) rounds
      q.1.chain = q.2.chain ∧ q.2.chain.length = r.chain.length + rounds.length := by
  induction rounds with
  | nil => intro seq m p r _ h2 _ _ _; exact ⟨h2, rfl⟩
  | cons ab rest ih =>
    obtain ⟨a, b⟩ := ab
    intro seq m p r h1 h2 h3 h4 h5
    obtain ⟨hn1, hn2, hn3⟩ := h5
    have hct : createTime (restoreLast p.last none) a = batchTime m a := by
      cases hl : p.last with
      | none => rw [hl] at h3; simp [restoreLast, createTime, batchTime, ← h3]
      | some l =>
        rw [hl] at h3
        simp only [Option.getD_some] at h3
        subst h3
        simp only [restoreLast, createTime, batchTime]
        split <;> omega
    have hp' : PpTime.step cfg p (.create a none) = { p with last := some (batchTime m a), pending := p.pending ++ [batchTime m a] } := by
      show PpTime.create p a none = _
      unfold PpTime.create
      simp only [hct]
    have hnt : noteTime r b ⟨(view, seq), batchTime m a, seq⟩ x =
        { r with tss := r.tss.set ((view, seq), seq, x) b } := by
      unfold noteTime
      rw [if_neg]
      simp [Dict.has, h4 seq seq (Nat.le_refl _)]
    have hbh : behind r.last (batchTime m a) = false := by
      rw [← h1]
      cases hl : p.last with
      | none => rfl
      | some l =>
        rw [hl] at h3
        simp only [Option.getD_some] at h3
        subst h3
        exact decide_eq_false (Nat.not_lt.2 (Nat.le_max_left l a))
    have htc : timeAcceptable cfg { r with tss := r.tss.set ((view, seq), seq, x) b } ⟨(view, seq), batchTime m a, seq⟩ x = true := by
      rw [timeAcceptable_eq]
      unfold timeCorrect
      have : dist (batchTime m a) b ≤ cfg.dev := by unfold dist; omega
      simp [hbh, Dict.get?_set, this]
    have hr' : PpTime.step cfg r (.recv b false allGood ⟨(view, seq), batchTime m a, seq⟩ x) =
        addPP { r with tss := r.tss.set ((view, seq), seq, x) b, pending := r.pending ++ [batchTime m a] } false ⟨(view, seq), batchTime m a, seq⟩ := by
      show PpTime.recv cfg r b false allGood _ x = _
      unfold PpTime.recv
      simp only [hnt, htc, allGood, Bool.not_true, Bool.false_eq_true, if_false]
    unfold primaryRun
    simp only [hp', List.getLast?_concat, hr']
    have := ih (seq + 1) (batchTime m a) { p with last := some (batchTime m a), pending := p.pending ++ [batchTime m a] }
      (addPP { r with tss := r.tss.set ((view, seq), seq, x) b, pending := r.pending ++ [batchTime m a] } false ⟨(view, seq), batchTime m a, seq⟩)
      (by simp [addPP]) (by
        have : p.chain ++ [batchTime m a] = r.chain ++ [batchTime m a] := by rw [h2]
        simpa [PpTime.State.chain, addPP] using this) (by simp) (by
        intro a' s hs
        show (r.tss.set ((view, seq), seq, x) b).get? _ = none
        rw [Dict.get?_set, if_neg]
        · exact h4 a' s (by omega)
        · intro e
          have : seq = s := congrArg (fun q => q.1.2) e
          omega) hn3
    refine ⟨this.1, ?_⟩
    rw [this.2]
    simp [PpTime.State.chain, addPP]
    omega

example : let q := primaryRun ⟨4, 600⟩ 0 1 1 ({}, {}) [(100, 105), (90, 106), (120, 119)]
    q.2.chain = [100, 100, 120] ∧ near 600 0 [(100, 105), (90, 106), (120, 119)] := by
  refine ⟨by decide +kernel, ?_⟩
  simp [near, batchTime]

example : RegularRun ⟨4, 600⟩ {} [.create 100 none, .recv 150 false allGood ⟨(0, 2), 120, 7⟩ 1, .commit, .viewChange,
      .recv 160 false allGood ⟨(1, 2), 120, 7⟩ 2, .restart, .create 90 none] ∧
    (PpTime.run ⟨4, 600⟩ {} [.create 100 none, .recv 150 false allGood ⟨(0, 2), 120, 7⟩ 1, .commit, .viewChange,
      .recv 160 false allGood ⟨(1, 2), 120, 7⟩ 2, .restart, .create 90 none]).chain = [100, 100] := by
  refine ⟨⟨trivial, ⟨rfl, rfl, ?_⟩, trivial, trivial, ⟨rfl, rfl, ?_⟩, trivial, trivial, trivial⟩, by decide +kernel⟩ <;>
    (intro h; exact absurd h (by decide +kernel))

example : (PpTime.run ⟨4, 600⟩ {} ([] ++ [.recv 150 false allGood ⟨(0, 1), 120, 7⟩ 1])).pending ≠ (PpTime.run ⟨4, 600⟩ {} []).pending := by
  decide +kernel

/-! ## Where it fails -/

/-- The new primary of a view does not remember the time of the batches of the old view that
it applies again, as the other replicas do. If its clock is a few seconds behind that of the
old primary, the first batch it makes has an earlier time than the batch before it, and the
others, though all have the same batches, refuse it. Here the old primary's clock was at 100,
the new one's is at 95. -/
theorem new_primary_time_back :
    let start : List Event := [.recv 50 false allGood ⟨(0, 1), 50, 1⟩ 1, .commit, .recv 98 false allGood ⟨(0, 2), 100, 2⟩ 1, .viewChange]
    let p := PpTime.run ⟨4, 600⟩ {} (start ++ [.recv 94 true allGood ⟨(1, 2), 100, 2⟩ 2])
    let r := PpTime.run ⟨4, 600⟩ {} (start ++ [.recv 94 false allGood ⟨(1, 2), 100, 2⟩ 2])
    let p' := PpTime.step ⟨4, 600⟩ p (.create 95 none)
    let r' := PpTime.step ⟨4, 600⟩ r (.recv 95 false allGood ⟨(1, 3), 95, 3⟩ 2)
    p.chain = [50, 100] ∧ r.chain = [50, 100] ∧ p'.chain = [50, 100, 95] ∧ r'.chain = [50, 100] := by decide +kernel

/-- A catchup brings batches but not their times: the next PRE-PREPARE may be behind them. -/
theorem caught_up_time_back :
    (PpTime.run ⟨4, 600⟩ {} [.catchup [50, 100], .recv 101 false allGood ⟨(0, 3), 60, 3⟩ 1]).chain = [50, 100, 60] := by
  decide +kernel

/-- A PRE-PREPARE for a batch that is ordered already is not checked, not even its sender;
but its time is remembered. -/
theorem replayed_time_back :
    (PpTime.run ⟨4, 600⟩ {} [.recv 50 false allGood ⟨(0, 1), 50, 1⟩ 1, .recv 99 false allGood ⟨(0, 2), 100, 2⟩ 1, .commit,
      .recv 100 false { admitted := true, ordered := true, before := false, after := false } ⟨(0, 1), 10, 9⟩ 3, .recv 101 false allGood ⟨(0, 3), 60, 3⟩ 1]).chain = [50, 100, 60] := by
  decide +kernel

/-- The PREPAREs that let a PRE-PREPARE through are counted by message: three copies from one
node are enough in a pool of 7, where three different nodes are meant. -/
theorem copies_of_one_prepare :
    (PpTime.run ⟨7, 600⟩ {} [.recv 100 false allGood ⟨(0, 1), 100, 1⟩ 1, .recv 101 false allGood ⟨(0, 2), 60, 2⟩ 1]).chain = [100] ∧
    (PpTime.run ⟨7, 600⟩ {} [.recv 100 false allGood ⟨(0, 1), 100, 1⟩ 1, .recv 101 false allGood ⟨(0, 2), 60, 2⟩ 1,
      .prepare 101 false allGood (0, 2) 60 5, .prepare 101 false allGood (0, 2) 60 5, .prepare 101 false allGood (0, 2) 60 5]).chain = [100, 60] := by
  decide +kernel

/-- The time in the PREPAREs is not compared with that of the PRE-PREPARE: what three nodes
say of a batch with time 100 lets through one with time 5000. -/
theorem prepare_time_not_compared :
    (PpTime.run ⟨7, 600⟩ {} [.recv 100 false allGood ⟨(0, 1), 5000, 1⟩ 1,
      .prepare 101 false allGood (0, 1) 100 2, .prepare 101 false allGood (0, 1) 100 3, .prepare 101 false allGood (0, 1) 100 4]).chain = [5000] := by
  decide +kernel

/-- PRE-PREPAREs of batches not yet ordered, each with a property of the time of arrival and
the time in it. -/
def PrePreparesWith (P : Nat → Nat → Prop) : List Event → Prop
  | [] => True
  | .recv now _ c pp _ :: es => (c.ordered = false ∧ P now pp.time) ∧ PrePreparesWith P es
  | _ :: _ => False

/-- A PRE-PREPARE refused for its time leaves the batches and the last time. -/
theorem recv_refused (cfg : PpTime.Cfg) (s : PpTime.State) (now : Nat) (primary : Bool) (c : Checks) (pp : PP) (x : Node)
    (ho : c.ordered = false) (hd : ∀ k, doneAt s k = false) (hrq : s.requested = []) (ht : timeCorrect cfg (noteTime s now pp x) pp x = false) :
    let r := PpTime.recv cfg s now primary c pp x
    r.pending = s.pending ∧ r.last = s.last ∧ r.tss = (noteTime s now pp x).tss ∧ (∀ k, doneAt r k = false) ∧ r.requested = [] := by
  obtain ⟨h1, h2, h3, h4, h5⟩ := noteTime_eq s now pp x
  have hd' : ∀ k, doneAt (noteTime s now pp x) k = false := by
    intro k; have := hd k; unfold doneAt at this ⊢; rw [h4]; exact this
  have hrq' : (noteTime s now pp x).requested = [] := by rw [noteTime_requested, hrq]
  unfold PpTime.recv
  simp only [ho, Bool.false_eq_true, if_false, timeAcceptable_eq, ht, hd', hrq', List.contains_nil, Bool.or_self, Bool.not_false, if_true]
  split
  · exact ⟨h2, h1, rfl, hd', hrq'⟩
  · split
    · exact ⟨h2, h1, rfl, hd', hrq'⟩
    · refine ⟨h2, h1, rfl, fun k => ?_, rfl⟩
      have := hd' k
      unfold doneAt at this ⊢
      simp only [Dict.get?_set]
      split
      · rfl
      · next h6 =>
        split at h6
        · cases h6; rfl
        · rw [h6] at this; exact this

/-- One message stops a replica from accepting batches. A PRE-PREPARE with the key of a batch
that is ordered already, from any node and with any time `T`, makes the replica refuse
all PRE-PREPAREs with earlier times, until `f + 1` PREPAREs have come for one of them or it is asked for; and
if all replicas got such a message, there are no PREPAREs. -/
theorem one_message_stops_batches (cfg : PpTime.Cfg) (s : PpTime.State) (now : Nat) (c : Checks) (pp : PP) (x : Node)
    (hadm : c.admitted = true) (ho : c.ordered = true) (hd : ∀ k, doneAt s k = false) (hrq : s.requested = [])
    (es : List Event) (hes : PrePreparesWith (fun _ t => t < pp.time) es) :
    (PpTime.run cfg s (.recv now false c pp x :: es)).pending = s.pending := by
  have main : ∀ (es : List Event) (s : PpTime.State), PrePreparesWith (fun _ t => t < pp.time) es → s.last = some pp.time →
      (∀ k, doneAt s k = false) → s.requested = [] → (PpTime.run cfg s es).pending = s.pending := by
    intro es
    induction es with
    | nil => intro s _ _ _ _; rfl
    | cons e es ih =>
      intro s hes hl hd hrq
      cases e with
      | recv now' primary c' pp' x' =>
        obtain ⟨⟨ho', hlt⟩, hes⟩ := hes
        have ht : timeCorrect cfg (noteTime s now' pp' x') pp' x' = false := by
          unfold timeCorrect
          rw [(noteTime_eq s now' pp' x').1, hl, if_pos (by simpa [behind] using hlt)]
        obtain ⟨hp, hl', _, hd', hrq'⟩ := recv_refused cfg s now' primary c' pp' x' ho' hd hrq ht
        have := ih (PpTime.recv cfg s now' primary c' pp' x') hes (hl'.trans hl) hd' hrq'
        exact this.trans hp
      | _ => exact hes.elim
  have hstep : PpTime.step cfg s (.recv now false c pp x) = addPP (noteTime s now pp x) false pp := by
    show PpTime.recv cfg s now false c pp x = _
    unfold PpTime.recv
    simp [hadm, ho]
  show (PpTime.run cfg (PpTime.step cfg s (.recv now false c pp x)) es).pending = _
  rw [main es _ hes (by rw [hstep]; simp [addPP]) (by
    intro k; rw [hstep]; have := hd k; unfold doneAt at this ⊢
    rw [addPP_stashed, (noteTime_eq s now pp x).2.2.2.1]; exact this)
    (by rw [hstep]; exact (noteTime_requested s now pp x).trans hrq), hstep, addPP_pending, (noteTime_eq s now pp x).2.1]

example : let s := PpTime.run ⟨4, 600⟩ {} [.recv 50 false allGood ⟨(1, 1), 50, 1⟩ 1, .commit]
    (∀ k, doneAt s k = false) ∧ s.requested = [] ∧
    PrePreparesWith (fun _ t => t < 99999999) [.recv 100 false allGood ⟨(1, 2), 100, 2⟩ 1, .recv 101 false allGood ⟨(1, 3), 101, 3⟩ 1] ∧
    (PpTime.run ⟨4, 600⟩ s [.recv 100 false allGood ⟨(1, 2), 100, 2⟩ 1, .recv 101 false allGood ⟨(1, 3), 101, 3⟩ 1]).pending = [100, 101] ∧
    (PpTime.run ⟨4, 600⟩ s [.recv 99 false { admitted := true, ordered := true, before := false, after := false } ⟨(1, 1), 99999999, 1⟩ 3,
      .recv 100 false allGood ⟨(1, 2), 100, 2⟩ 1, .recv 101 false allGood ⟨(1, 3), 101, 3⟩ 1]).pending = [] :=
  ⟨fun _ => rfl, rfl, ⟨⟨rfl, by decide⟩, ⟨rfl, by decide⟩, trivial⟩, by decide +kernel, by decide +kernel⟩

/-- A batch that is older than the deviation when the new view starts is not ordered again.
After a view change, every replica that has not ordered it, and gets its PRE-PREPARE after
more than the deviation, refuses it. It is let through only by PREPAREs of `f + 1` nodes,
which only nodes that have ordered it send, or when it is asked for because a later one has
come. -/
theorem old_batch_refused (cfg : PpTime.Cfg) (s : PpTime.State) (t0 : Nat) (hd : ∀ k, doneAt s k = false)
    (es : List Event) (hes : PrePreparesWith (fun now t => t0 ≤ now ∧ t + cfg.dev < t0) es) :
    (PpTime.run cfg s (.viewChange :: es)).pending = [] := by
  have main : ∀ (es : List Event) (s : PpTime.State), PrePreparesWith (fun now t => t0 ≤ now ∧ t + cfg.dev < t0) es →
      (∀ k t, s.tss.get? k = some t → t0 ≤ t) → (∀ k, doneAt s k = false) → s.requested = [] →
      (PpTime.run cfg s es).pending = s.pending := by
    intro es
    induction es with
    | nil => intro s _ _ _ _; rfl
    | cons e es ih =>
      intro s hes hl hd hrq
      cases e with
      | recv now' primary c' pp' x' =>
        obtain ⟨⟨ho', hnow, hlt⟩, hes⟩ := hes
        have hl2 : ∀ k t, (noteTime s now' pp' x').tss.get? k = some t → t0 ≤ t := by
          intro k t h
          unfold noteTime at h
          split at h
          · exact hl k t h
          · rw [Dict.get?_set] at h
            split at h
            · cases h; exact hnow
            · exact hl k t h
        have ht : timeCorrect cfg (noteTime s now' pp' x') pp' x' = false := by
          unfold timeCorrect
          split
          · rfl
          · split
            · rfl
            · next t hk =>
              have := hl2 _ _ hk
              apply decide_eq_false
              unfold dist
              omega
        obtain ⟨hp, _, htss, hd', hrq'⟩ := recv_refused cfg s now' primary c' pp' x' ho' hd hrq ht
        have := ih (PpTime.recv cfg s now' primary c' pp' x') hes (by rw [htss]; exact hl2) hd' hrq'
        exact this.trans hp
      | _ => exact hes.elim
  exact main es { revert s with tss := [], requested := [] } hes (fun k t h => by simp at h) (fun k => hd k) rfl

example : (PpTime.run ⟨4, 600⟩ {} [.recv 100 false allGood ⟨(0, 1), 100, 1⟩ 1]).pending = [100] ∧
    (PpTime.run ⟨4, 600⟩ {} [.recv 100 false allGood ⟨(0, 1), 100, 1⟩ 1, .viewChange, .recv 500 false allGood ⟨(1, 1), 100, 1⟩ 2]).pending = [100] ∧
    (PpTime.run ⟨4, 600⟩ {} [.recv 100 false allGood ⟨(0, 1), 100, 1⟩ 1, .viewChange, .recv 900 false allGood ⟨(1, 1), 100, 1⟩ 2]).pending = [] ∧
    PrePreparesWith (fun now t => 900 ≤ now ∧ t + 600 < 900) [.recv 900 false allGood ⟨(1, 1), 100, 1⟩ 2] :=
  ⟨by decide +kernel, by decide +kernel, by decide +kernel, ⟨rfl, by decide, by decide⟩, trivial⟩

/-- PREPAREs that came before the PRE-PREPARE do not let it through, if they are too few to ask
for it: they are looked at only when one more PREPARE comes. In a pool of 7, three are enough
after it and not before it. -/
theorem early_prepares_not_counted :
    (PpTime.run ⟨7, 600⟩ {} [.prepare 100 false allGood (0, 1) 100 2, .prepare 100 false allGood (0, 1) 100 3, .prepare 100 false allGood (0, 1) 100 4,
      .recv 900 false allGood ⟨(0, 1), 100, 1⟩ 1]).pending = [] ∧
    (PpTime.run ⟨7, 600⟩ {} [.recv 900 false allGood ⟨(0, 1), 100, 1⟩ 1, .prepare 900 false allGood (0, 1) 100 2,
      .prepare 900 false allGood (0, 1) 100 3, .prepare 900 false allGood (0, 1) 100 4]).pending = [100] := by decide +kernel

/-! ## A PRE-PREPARE that was asked for -/

/-- The time of a PRE-PREPARE whose key was asked for is not checked: whatever it is, and whoever
delivers it, reply or not, it is taken, if the other checks pass. -/
theorem asked_for_any_time (cfg : PpTime.Cfg) (s : PpTime.State) (now : Nat) (c : Checks) (pp : PP) (x : Node)
    (hk : pp.key ∈ s.requested) (h1 : c.admitted = true) (h2 : c.ordered = false) (h3 : c.before = true) (h4 : c.after = true) :
    (PpTime.step cfg s (.recv now false c pp x)).chain = s.chain ++ [pp.time] ∧
    (PpTime.step cfg s (.recv now false c pp x)).last = some pp.time := by
  have hacc : timeAcceptable cfg (noteTime s now pp x) pp x = true := by
    rw [timeAcceptable_eq, noteTime_requested]
    simp [hk]
  obtain ⟨_, e2, e3, _⟩ := noteTime_eq s now pp x
  have : PpTime.step cfg s (.recv now false c pp x) =
      addPP { noteTime s now pp x with pending := (noteTime s now pp x).pending ++ [pp.time] } false pp := by
    show PpTime.recv cfg s now false c pp x = _
    unfold PpTime.recv
    simp [h1, h2, h3, h4, hacc]
  rw [this]
  exact ⟨by simp [addPP, PpTime.State.chain, e2, e3], rfl⟩

/-- A primary gives a batch any time it likes, without help of others. Batch 1 has the time 100.
The PRE-PREPARE of batch 2 has the time `t`; the one of batch 3 comes first and has the time
on the clock, so that batch 2 is asked for; then batch 2 comes, from the primary. -/
theorem primary_chooses_time (t : Nat) :
    (PpTime.run ⟨4, 600⟩ {} [.recv 100 false allGood ⟨(0, 1), 100, 1⟩ 1,
      .recv 101 false { allGood with after := false } ⟨(0, 3), 101, 3⟩ 1, .missing [(0, 2)],
      .recv 102 false allGood ⟨(0, 2), t, 2⟩ 1]).chain = [100, t] := by
  have hs : (0, 2) ∈ (PpTime.run ⟨4, 600⟩ {} [.recv 100 false allGood ⟨(0, 1), 100, 1⟩ 1,
      .recv 101 false { allGood with after := false } ⟨(0, 3), 101, 3⟩ 1, .missing [(0, 2)]]).requested := by decide +kernel
  have hc : (PpTime.run ⟨4, 600⟩ {} [.recv 100 false allGood ⟨(0, 1), 100, 1⟩ 1,
      .recv 101 false { allGood with after := false } ⟨(0, 3), 101, 3⟩ 1, .missing [(0, 2)]]).chain = [100] := by decide +kernel
  have := (asked_for_any_time ⟨4, 600⟩ _ 102 allGood ⟨(0, 2), t, 2⟩ 1 hs rfl rfl rfl rfl).1
  rw [hc] at this
  exact this

/-- Without the later PRE-PREPARE it would not be taken. -/
example : (PpTime.run ⟨4, 600⟩ {} [.recv 100 false allGood ⟨(0, 1), 100, 1⟩ 1, .recv 102 false allGood ⟨(0, 2), 5, 2⟩ 1]).chain = [100] ∧
    (PpTime.run ⟨4, 600⟩ {} [.recv 100 false allGood ⟨(0, 1), 100, 1⟩ 1, .recv 102 false allGood ⟨(0, 2), 5000, 2⟩ 1]).chain = [100] := by
  decide +kernel

/-- So does one node together with the primary: its PREPARE, sent `n - f - 1` times before the
PRE-PREPARE, makes a replica ask. -/
theorem copies_make_any_time (t : Nat) :
    (PpTime.run ⟨7, 600⟩ {} (List.replicate 4 (.prepare 100 false allGood (0, 1) 100 5) ++ [.recv 102 false allGood ⟨(0, 1), t, 2⟩ 1])).chain = [t] := by
  have hs : (0, 1) ∈ (PpTime.run ⟨7, 600⟩ {} (List.replicate 4 (.prepare 100 false allGood (0, 1) 100 5))).requested := by decide +kernel
  have hc : (PpTime.run ⟨7, 600⟩ {} (List.replicate 4 (.prepare 100 false allGood (0, 1) 100 5))).chain = [] := by decide +kernel
  have := (asked_for_any_time ⟨7, 600⟩ _ 102 allGood ⟨(0, 1), t, 2⟩ 1 hs rfl rfl rfl rfl).1
  rw [hc] at this
  unfold PpTime.run at this ⊢
  rw [List.foldl_append]
  exact this

/-- And then no batch with an earlier time is taken, unless it is asked for as well: one far in
the future stops the replica until the next view. -/
theorem far_time_stops_batches (cfg : PpTime.Cfg) (s : PpTime.State) (T : Nat) (hl : s.last = some T)
    (hd : ∀ k, doneAt s k = false) (hrq : s.requested = [])
    (es : List Event) (hes : PrePreparesWith (fun _ t => t < T) es) : (PpTime.run cfg s es).pending = s.pending := by
  induction es generalizing s with
  | nil => rfl
  | cons e es ih =>
    cases e with
    | recv now' primary c' pp' x' =>
      obtain ⟨⟨ho', hlt⟩, hes⟩ := hes
      have ht : timeCorrect cfg (noteTime s now' pp' x') pp' x' = false := by
        unfold timeCorrect
        rw [(noteTime_eq s now' pp' x').1, hl, if_pos (by simpa [behind] using hlt)]
      obtain ⟨hp, hl', _, hd', hrq'⟩ := recv_refused cfg s now' primary c' pp' x' ho' hd hrq ht
      exact (ih (PpTime.recv cfg s now' primary c' pp' x') (hl'.trans hl) hd' hrq' hes).trans hp
    | _ => exact hes.elim

example : let s := PpTime.run ⟨4, 600⟩ {} [.recv 100 false allGood ⟨(0, 1), 100, 1⟩ 1,
      .recv 101 false { allGood with after := false } ⟨(0, 3), 101, 3⟩ 1, .missing [(0, 2)],
      .recv 102 false allGood ⟨(0, 2), 9000, 2⟩ 1, .commit, .commit, .forget [(0, 1), (0, 2)]]
    s.last = some 9000 ∧ (∀ k, doneAt s k = false) ∧ s.requested = [] ∧
    PrePreparesWith (fun _ t => t < 9000) [.recv 103 false allGood ⟨(0, 3), 103, 3⟩ 1] :=
  ⟨rfl, fun _ => rfl, rfl, ⟨rfl, by decide⟩, trivial⟩

end Verif.Props
