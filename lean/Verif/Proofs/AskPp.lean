import Verif.Spec.AskPp
import Verif.Proofs.Count
/-!
# Proofs for C105
-/
namespace Verif.AskPp
open Verif Verif.MsgReq

/-! ## The most frequent element -/

theorem mostCommon_aux (l : List Stash) : ∀ (m : List Stash) (b : Option Stash),
    (∀ y, b = some y → y ∈ l) → (∀ x ∈ m, x ∈ l) → (b ≠ none ∨ m ≠ []) →
    ∃ y ∈ l, (m.foldl (fun b x => match b with
      | none => some x
      | some y => if l.count y < l.count x then some x else some y) b) = some y ∧
      (∀ z, b = some z → l.count z ≤ l.count y) ∧ ∀ x ∈ m, l.count x ≤ l.count y := by
  intro m
  induction m with
  | nil =>
    intro b hb _ hne
    cases b with
    | none => exact absurd rfl (hne.resolve_right (fun h => h rfl))
    | some y => exact ⟨y, hb y rfl, rfl, fun z hz => by cases hz; exact Nat.le_refl _, fun x hx => by cases hx⟩
  | cons x m ih =>
    intro b hb hm _
    have hx := hm x List.mem_cons_self
    have hm' : ∀ z ∈ m, z ∈ l := fun z hz => hm z (List.mem_cons_of_mem _ hz)
    cases b with
    | none =>
      obtain ⟨y, h1, h2, h3, h4⟩ := ih (some x) (fun z hz => by cases hz; exact hx) hm' (.inl (by simp))
      refine ⟨y, h1, h2, (fun z hz => by cases hz), fun z hz => ?_⟩
      rcases List.mem_cons.1 hz with rfl | hz
      · exact h3 _ rfl
      · exact h4 z hz
    | some w =>
      by_cases hlt : l.count w < l.count x
      · obtain ⟨y, h1, h2, h3, h4⟩ := ih (some x) (fun z hz => by cases hz; exact hx) hm' (.inl (by simp))
        refine ⟨y, h1, by rw [List.foldl_cons]; dsimp only; rw [if_pos hlt]; exact h2, fun z hz => ?_, fun z hz => ?_⟩
        · cases hz; have := h3 x rfl; omega
        · rcases List.mem_cons.1 hz with rfl | hz
          · exact h3 _ rfl
          · exact h4 z hz
      · obtain ⟨y, h1, h2, h3, h4⟩ := ih (some w) hb hm' (.inl (by simp))
        refine ⟨y, h1, by rw [List.foldl_cons]; dsimp only; rw [if_neg hlt]; exact h2, fun z hz => ?_, fun z hz => ?_⟩
        · cases hz; exact h3 w rfl
        · rcases List.mem_cons.1 hz with rfl | hz
          · have := h3 w rfl; omega
          · exact h4 z hz

theorem mostCommon_spec {l : List Stash} (h : l ≠ []) :
    ∃ y ∈ l, mostCommon l = some y ∧ ∀ x, l.count x ≤ l.count y := by
  obtain ⟨y, h1, h2, _, h4⟩ := mostCommon_aux l l none (fun y hy => by cases hy) (fun _ hx => hx) (.inr h)
  refine ⟨y, h1, h2, fun x => ?_⟩
  by_cases hx : x ∈ l
  · exact h4 x hx
  · rw [List.count_eq_zero_of_not_mem hx]; exact Nat.zero_le _

theorem count_add_le {l : List Stash} {a b : Stash} (h : a ≠ b) : l.count a + l.count b ≤ l.length := by
  induction l with
  | nil => simp
  | cons x l ih =>
    simp only [List.count_cons, List.length_cons]
    by_cases ha : x = a
    · subst ha
      rw [if_neg (c := (x == b) = true) (by simpa using h)]
      simp; omega
    · rw [if_neg (c := (x == a) = true) (by simpa using ha)]
      split <;> omega

theorem mostCommon_majority {l : List Stash} {st : Stash} (h : l.length < 2 * l.count st) : mostCommon l = some st := by
  have hne : l ≠ [] := fun e => by subst e; simp at h
  obtain ⟨y, _, h2, h3⟩ := mostCommon_spec hne
  by_cases e : y = st
  · rw [h2, e]
  · have := h3 st
    have := count_add_le (l := l) e
    omega

/-- The first one stays if no other is more frequent. -/
theorem mostCommon_first {w : Stash} {l : List Stash} (h : ∀ x, (w :: l).count x ≤ (w :: l).count w) : mostCommon (w :: l) = some w := by
  have main : ∀ m : List Stash, (m.foldl (fun b x => match b with
      | none => some x
      | some y => if (w :: l).count y < (w :: l).count x then some x else some y) (some w)) = some w := by
    intro m
    induction m with
    | nil => rfl
    | cons x m ih =>
      rw [List.foldl_cons]
      dsimp only
      rw [if_neg (Nat.not_lt.2 (h x))]
      exact ih
  unfold mostCommon
  rw [List.foldl_cons]
  exact main l

/-! ## By sender -/

theorem bySender_snoc (q : List (Stash × Nat)) (e : Stash × Nat) : bySender (q ++ [e]) = (bySender q).set e.2 e.1 := by
  unfold bySender; rw [List.foldl_append]; rfl

theorem set_ne_nil (d : Dict Nat Stash) (k : Nat) (v : Stash) : d.set k v ≠ [] := by
  cases d with
  | nil => simp [Dict.set]
  | cons e d =>
    obtain ⟨a, b⟩ := e
    unfold Dict.set
    split <;> simp

theorem bySender_ne_nil {q : List (Stash × Nat)} (h : q ≠ []) : bySender q ≠ [] := by
  rcases List.eq_nil_or_concat q with h' | ⟨p, e, rfl⟩
  · exact absurd h' h
  · rw [List.concat_eq_append, bySender_snoc]; exact set_ne_nil _ _ _

theorem acceptable_some {q : List (Stash × Nat)} (h : q ≠ []) : ∃ st, acceptable q = some st := by
  have : (bySender q).map Prod.snd ≠ [] := by simpa using bySender_ne_nil h
  obtain ⟨y, _, h2, _⟩ := mostCommon_spec this
  exact ⟨y, h2⟩

theorem bySender_values (q : List (Stash × Nat)) : ∀ e ∈ bySender q, ∃ m ∈ q, m.1 = e.2 := by
  induction q using snoc_induction with
  | nil => intro e he; cases he
  | snoc q m ih =>
    intro e he
    rw [bySender_snoc] at he
    rcases Dict.mem_set he with he | rfl
    · obtain ⟨m', h1, h2⟩ := ih e he
      exact ⟨m', List.mem_append_left _ h1, h2⟩
    · exact ⟨m, List.mem_append_right _ (List.mem_singleton.2 rfl), rfl⟩

/-- All say the same, however often. -/
theorem acceptable_same {q : List (Stash × Nat)} {st : Stash} (h : q ≠ []) (hs : ∀ m ∈ q, m.1 = st) : acceptable q = some st := by
  have hall : ∀ x ∈ (bySender q).map Prod.snd, x = st := by
    intro x hx
    obtain ⟨e, he, rfl⟩ := List.mem_map.1 hx
    obtain ⟨m, h1, h2⟩ := bySender_values q e he
    rw [← h2]; exact hs m h1
  have hne : (bySender q).map Prod.snd ≠ [] := by simpa using bySender_ne_nil h
  obtain ⟨y, h1, h2, _⟩ := mostCommon_spec hne
  unfold acceptable
  rw [h2, hall y h1]

theorem set_absent {d : Dict Nat Stash} {k : Nat} (v : Stash) (h : k ∉ d.keys) : d.set k v = d ++ [(k, v)] := by
  induction d with
  | nil => rfl
  | cons e d ih =>
    obtain ⟨a, b⟩ := e
    have h1 : a ≠ k := fun e => h (by simp [Dict.keys, e])
    have h2 : k ∉ Dict.keys d := fun e => h (by simp only [Dict.keys, List.map_cons, List.mem_cons]; right; exact e)
    unfold Dict.set
    rw [if_neg h1, ih h2]
    rfl

theorem bySender_nodup (q : List (Stash × Nat)) (h : (q.map Prod.snd).Nodup) : bySender q = q.map (fun m => (m.2, m.1)) := by
  induction q using snoc_induction with
  | nil => rfl
  | snoc q m ih =>
    rw [List.map_append, List.nodup_append] at h
    have := ih h.1
    rw [bySender_snoc, this, set_absent, List.map_append]
    · rfl
    · intro hk
      have hk' : m.2 ∈ q.map Prod.snd := by simpa [Dict.keys] using hk
      exact h.2.2 _ hk' m.2 (by simp) rfl

theorem values_nodup (q : List (Stash × Nat)) (h : (q.map Prod.snd).Nodup) : (bySender q).map Prod.snd = q.map Prod.fst := by
  rw [bySender_nodup q h, List.map_map]; rfl

/-- Each says it once, and more than half say the same. -/
theorem acceptable_majority {q : List (Stash × Nat)} {st : Stash} (h : (q.map Prod.snd).Nodup)
    (hm : q.length < 2 * (q.map Prod.fst).count st) : acceptable q = some st := by
  unfold acceptable
  rw [values_nodup q h]
  exact mostCommon_majority (by simpa using hm)

/-! ## Requests -/

theorem request3pc_data (s : MsgReq.State) (j : Key) (v : Option Stash) :
    (request3pc s .prePrepare j v).data = s.data := by
  unfold request3pc; split <;> rfl

theorem request3pc_get (s : MsgReq.State) (j k : Key) (v : Option Stash) :
    (request3pc s .prePrepare j v).reqPP.get? k =
      if j = k then (match s.reqPP.get? k with | none => some v | some w => some w) else s.reqPP.get? k := by
  unfold request3pc
  split
  · next h =>
    split
    · next e =>
      subst e
      obtain ⟨w, hw⟩ := (Dict.has_iff _ _).1 h
      have hw' : s.reqPP.get? j = some w := hw
      rw [hw']
    · rfl
  · next h =>
    have h' : s.reqPP.get? j = none := (Dict.has_false_iff _ _).1 (by
      cases hh : s.reqPP.has j with
      | false => rfl
      | true => exact absurd hh h)
    show (s.reqPP.set j v).get? k = _
    rw [Dict.get?_set]
    split
    · next e => subst e; rw [h']
    · rfl

/-- The requests for a number, and the messages sent for it, before and after asking. -/
theorem requestPp_eq (s : State) (c : Ctx) (j : Key) (v : Option Stash) (k : Key) :
    (requestPp s c j v).waiting = s.waiting ∧ (requestPp s c j v).msgs.data = s.msgs.data ∧
    (((requestPp s c j v).msgs.reqPP.get? k = s.msgs.reqPP.get? k ∧ (requestPp s c j v).sent.count k = s.sent.count k) ∨
      j = k ∧ c.enabled = true ∧ s.msgs.reqPP.get? k = none ∧
      (requestPp s c j v).msgs.reqPP.get? k = some v ∧ (requestPp s c j v).sent.count k = s.sent.count k + 1) := by
  unfold requestPp
  cases he : c.enabled with
  | false => exact ⟨rfl, rfl, .inl ⟨rfl, rfl⟩⟩
  | true =>
    simp only [Bool.not_true, Bool.false_eq_true, if_false]
    refine ⟨trivial, request3pc_data _ _ _, ?_⟩
    rw [request3pc_get]
    by_cases e : j = k
    · subst e
      rw [if_pos rfl]
      cases hg : s.msgs.reqPP.get? j with
      | none =>
        right
        rw [if_neg (by rw [(Dict.has_false_iff _ _).2 hg]; decide), List.count_append]
        exact ⟨rfl, trivial, rfl, rfl, by simp⟩
      | some w =>
        left
        rw [if_pos ((Dict.has_iff _ _).2 ⟨w, hg⟩)]
        exact ⟨rfl, rfl⟩
    · left
      rw [if_neg e]
      refine ⟨rfl, ?_⟩
      split
      · rfl
      · rw [List.count_append, List.count_cons_of_ne e]; simp

/-- What an event does to the wait for a number. -/
theorem step_cases (s : State) (e : Ev) (k : Key) (hk : ends k e = false) :
    (((step s e).waiting.get? k).getD [] = ((s.waiting.get? k).getD []) ++ preparesOf k [e]) ∧
    (((step s e).msgs.reqPP.get? k = s.msgs.reqPP.get? k ∧ (step s e).sent.count k = s.sent.count k) ∨
      s.msgs.reqPP.get? k = none ∧ (step s e).sent.count k = s.sent.count k + 1 ∧
      ((∃ c, e = .missing k c ∧ (step s e).msgs.reqPP.get? k = some none) ∨
       ∃ st x c st', e = .prepare k st x c ∧ (step s e).msgs.reqPP.get? k = some (some st') ∧
        acceptable (((s.waiting.get? k).getD []) ++ [(st, x)]) = some st' ∧
        (Quorums.ofN s.msgs.data.n).prepare.value ≤ ((s.waiting.get? k).getD []).length + 1)) := by
  cases e with
  | prepare j st x c =>
    have hstep : step s (.prepare j st x c) = enqueuePrepare s c j st x := rfl
    rw [hstep]
    have hw : ∀ t : State, t.waiting = s.waiting.set j (((s.waiting.get? j).getD []) ++ [(st, x)]) →
        (t.waiting.get? k).getD [] = ((s.waiting.get? k).getD []) ++ preparesOf k [.prepare j st x c] := by
      intro t ht
      rw [ht, Dict.get?_set]
      by_cases e : j = k
      · subst e; simp [preparesOf]
      · simp [preparesOf, e]
    unfold enqueuePrepare
    simp only
    cases c.stashedForTime with
    | true => exact ⟨hw _ rfl, .inl ⟨rfl, rfl⟩⟩
    | false =>
      cases c.may with
      | false => exact ⟨hw _ rfl, .inl ⟨rfl, rfl⟩⟩
      | true =>
        simp only [Bool.false_eq_true, if_false, if_true]
        unfold requestForPrepare
        simp only [Dict.get?_set, if_true, Option.getD_some]
        cases hp : c.pendingPrev with
        | true => exact ⟨hw _ rfl, .inl ⟨rfl, rfl⟩⟩
        | false =>
          simp only [Bool.false_eq_true, if_false]
          split
          · exact ⟨hw _ rfl, .inl ⟨rfl, rfl⟩⟩
          · next hq =>
            cases ha : acceptable (((s.waiting.get? j).getD []) ++ [(st, x)]) with
            | none => exact ⟨hw _ rfl, .inl ⟨rfl, rfl⟩⟩
            | some st' =>
              simp only
              split
              · exact ⟨hw _ rfl, .inl ⟨rfl, rfl⟩⟩
              · obtain ⟨h1, h2, h3⟩ := requestPp_eq { s with waiting := s.waiting.set j (((s.waiting.get? j).getD []) ++ [(st, x)]) } c j (some st') k
                refine ⟨hw _ h1, ?_⟩
                rcases h3 with h3 | ⟨h3, _, h4, h5, h6⟩
                · left; exact h3
                · right
                  subst h3
                  refine ⟨h4, h6, .inr ⟨st, x, c, st', rfl, h5, ha, ?_⟩⟩
                  simpa using hq
  | missing j c =>
    have hstep : step s (.missing j c) = requestPp s c j none := rfl
    rw [hstep]
    obtain ⟨h1, h2, h3⟩ := requestPp_eq s c j none k
    refine ⟨by rw [h1]; simp [preparesOf], ?_⟩
    rcases h3 with h3 | ⟨h3, _, h4, h5, h6⟩
    · left; exact h3
    · right
      subst h3
      exact ⟨h4, h6, .inl ⟨c, rfl, h5⟩⟩
  | arrived j =>
    have hj : j ≠ k := by simpa [ends] using hk
    refine ⟨?_, .inl ⟨rfl, rfl⟩⟩
    show (((s.waiting.erase j).get? k).getD []) = _
    rw [Dict.get?_erase, if_neg hj]
    simp [preparesOf]
  | ordered j =>
    have hj : j ≠ k := by simpa [ends] using hk
    refine ⟨by show (s.waiting.get? k).getD [] = _; simp [preparesOf], .inl ⟨?_, rfl⟩⟩
    show (s.msgs.reqPP.erase j).get? k = _
    rw [Dict.get?_erase, if_neg hj]
  | viewChangeStarted => cases hk
  | stable j =>
    have hj : ¬ k.2 ≤ j.2 := by simpa [ends] using hk
    refine ⟨by show (s.waiting.get? k).getD [] = _; simp [preparesOf], .inl ⟨?_, rfl⟩⟩
    show Dict.get? (s.msgs.reqPP.filter (fun e => !notLess e.1 j)) k = _
    rw [Dict.get?_filter s.msgs.reqPP (fun a => !notLess a j) k]
    simp [notLess, hj]
  | data d => exact ⟨by show (s.waiting.get? k).getD [] = _; simp [preparesOf], .inl ⟨rfl, rfl⟩⟩

theorem step_n (n : Nat) (s : State) (e : Ev) (h : s.msgs.data.n = n) (he : sameSize n e) : (step s e).msgs.data.n = n := by
  cases e with
  | prepare j st x c =>
    show (enqueuePrepare s c j st x).msgs.data.n = n
    unfold enqueuePrepare
    simp only
    split
    · exact h
    · split
      · unfold requestForPrepare
        simp only
        split
        · exact h
        · split
          · exact h
          · split
            · exact h
            · split
              · exact h
              · rw [(requestPp_eq _ c j _ j).2.1]; exact h
      · exact h
  | missing j c =>
    show (requestPp s c j none).msgs.data.n = n
    rw [(requestPp_eq s c j none j).2.1]; exact h
  | data d => exact he
  | _ => exact h

/-! ## Before and during the wait -/

theorem preparesOf_append (k : Key) (a b : List Ev) : preparesOf k (a ++ b) = preparesOf k a ++ preparesOf k b := by
  unfold preparesOf; rw [List.filterMap_append]

/-- Nothing is known of the number. -/
structure Clear (n : Nat) (k : Key) (s : State) : Prop where
  size : s.msgs.data.n = n
  waiting : s.waiting.get? k = none
  req : s.msgs.reqPP.get? k = none

theorem Clear.step {n : Nat} {k : Key} {s : State} (h : Clear n k s) (e : Ev) (ha : about k e = false) (he : sameSize n e) :
    Clear n k (AskPp.step s e) := by
  refine ⟨step_n n s e h.size he, ?_, ?_⟩
  · cases e with
    | prepare j st x c =>
      have hj : j ≠ k := by simpa [about] using ha
      have hw : ∀ t : State, t.waiting = s.waiting.set j (((s.waiting.get? j).getD []) ++ [(st, x)]) → t.waiting.get? k = none := by
        intro t ht; rw [ht, Dict.get?_set, if_neg hj]; exact h.waiting
      show (enqueuePrepare s c j st x).waiting.get? k = none
      unfold enqueuePrepare
      simp only
      split
      · exact hw _ rfl
      · split
        · unfold requestForPrepare
          simp only
          split
          · exact hw _ rfl
          · split
            · exact hw _ rfl
            · split
              · exact hw _ rfl
              · split
                · exact hw _ rfl
                · exact hw _ (requestPp_eq _ c j _ j).1
        · exact hw _ rfl
    | missing j c =>
      show (requestPp s c j none).waiting.get? k = none
      rw [(requestPp_eq s c j none j).1]; exact h.waiting
    | arrived j =>
      show (s.waiting.erase j).get? k = none
      rw [Dict.get?_erase]; split
      · rfl
      · exact h.waiting
    | _ => exact h.waiting
  · by_cases hk : ends k e = false
    · rcases (step_cases s e k hk).2 with ⟨h1, _⟩ | ⟨_, _, ⟨c, rfl, _⟩ | ⟨st, x, c, st', rfl, _⟩⟩
      · rw [h1]; exact h.req
      · simp [about] at ha
      · simp [about] at ha
    · cases e with
      | prepare j st x c => exact absurd rfl hk
      | missing j c => exact absurd rfl hk
      | data d => exact absurd rfl hk
      | arrived j => exact h.req
      | ordered j =>
        show (s.msgs.reqPP.erase j).get? k = none
        rw [Dict.get?_erase]; split
        · rfl
        · exact h.req
      | viewChangeStarted => rfl
      | stable j =>
        show Dict.get? (s.msgs.reqPP.filter (fun e => !notLess e.1 j)) k = none
        rw [Dict.get?_filter s.msgs.reqPP (fun a => !notLess a j) k]
        split
        · exact h.req
        · rfl

theorem Clear.run {n : Nat} {k : Key} (h0 : List Ev) : ∀ {s : State}, Clear n k s → (∀ e ∈ h0, about k e = false) →
    (∀ e ∈ h0, sameSize n e) → Clear n k (h0.foldl AskPp.step s) := by
  induction h0 with
  | nil => intro s h _ _; exact h
  | cons e h0 ih =>
    intro s h ha hs
    exact ih (h.step e (ha e List.mem_cons_self) (hs e List.mem_cons_self)) (fun x hx => ha x (List.mem_cons_of_mem _ hx))
      (fun x hx => hs x (List.mem_cons_of_mem _ hx))

/-- What is known of the number during the wait. -/
structure During (n : Nat) (k : Key) (h : List Ev) (s : State) : Prop where
  size : s.msgs.data.n = n
  waiting : (s.waiting.get? k).getD [] = preparesOf k h
  sent : ∀ v, s.msgs.reqPP.get? k = some v → k ∈ s.sent
  req : ∀ v, s.msgs.reqPP.get? k = some v → (∃ c, v = none ∧ Ev.missing k c ∈ h) ∨
    ∃ st p t, v = some st ∧ preparesOf k h = p ++ t ∧ (Quorums.ofN n).prepare.value ≤ p.length ∧ acceptable p = some st
  asked : allFree k h → (Quorums.ofN n).prepare.value ≤ (preparesOf k h).length → preparesOf k h ≠ [] → s.msgs.reqPP.get? k ≠ none

theorem step_asks {s : State} {c : Ctx} {k : Key} {st : Stash} {x : Nat} (hc : c.free)
    (hq : (Quorums.ofN s.msgs.data.n).prepare.value ≤ ((s.waiting.get? k).getD []).length + 1) :
    (step s (.prepare k st x c)).msgs.reqPP.get? k ≠ none := by
  obtain ⟨h1, h2, h3, h4, h5⟩ := hc
  obtain ⟨st', ha⟩ := acceptable_some (q := ((s.waiting.get? k).getD []) ++ [(st, x)]) (by simp)
  show (enqueuePrepare s c k st x).msgs.reqPP.get? k ≠ none
  unfold enqueuePrepare requestForPrepare requestPp
  simp only [h1, h2, h3, h4, h5, Dict.get?_set, if_true, Option.getD_some, ha, List.contains_nil, Bool.false_eq_true, if_false,
    Bool.not_true]
  rw [if_neg (by simpa using hq)]
  show (request3pc s.msgs .prePrepare k (some st')).reqPP.get? k ≠ none
  rw [request3pc_get, if_pos rfl]
  split <;> simp

theorem During.step {n : Nat} {k : Key} {h : List Ev} {s : State} (hd : During n k h s) (e : Ev) (hk : ends k e = false)
    (he : sameSize n e) : During n k (h ++ [e]) (AskPp.step s e) := by
  obtain ⟨c1, c2⟩ := step_cases s e k hk
  have hreq0 : ∀ v, s.msgs.reqPP.get? k = some v → (∃ c, v = none ∧ Ev.missing k c ∈ h ++ [e]) ∨
      ∃ st p t, v = some st ∧ preparesOf k (h ++ [e]) = p ++ t ∧ (Quorums.ofN n).prepare.value ≤ p.length ∧ acceptable p = some st := by
    intro v hv
    rcases hd.req v hv with ⟨c, h1, h2⟩ | ⟨st, p, t, h1, h2, h3⟩
    · exact .inl ⟨c, h1, List.mem_append_left _ h2⟩
    · exact .inr ⟨st, p, t ++ preparesOf k [e], h1, by rw [preparesOf_append, h2, List.append_assoc], h3⟩
  refine ⟨step_n n s e hd.size he, by rw [c1, hd.waiting, preparesOf_append], ?_, ?_, ?_⟩
  · intro v hv
    rcases c2 with ⟨h1, h2⟩ | ⟨h1, h2, _⟩
    · rw [h1] at hv
      have := hd.sent v hv
      exact List.count_pos_iff.1 (by rw [h2]; exact List.count_pos_iff.2 this)
    · exact List.count_pos_iff.1 (by rw [h2]; omega)
  · intro v hv
    rcases c2 with ⟨h1, _⟩ | ⟨_, _, ⟨c, rfl, h3⟩ | ⟨st, x, c, st', rfl, h3, h4, h5⟩⟩
    · rw [h1] at hv; exact hreq0 v hv
    · rw [h3] at hv; cases hv
      exact .inl ⟨c, rfl, by simp⟩
    · rw [h3] at hv; cases hv
      refine .inr ⟨st', preparesOf k h ++ [(st, x)], [], rfl, ?_, ?_, by rw [← hd.waiting]; exact h4⟩
      · rw [preparesOf_append]; simp [preparesOf]
      · rw [hd.size, hd.waiting] at h5; simpa using h5
  · intro hf hq hne
    have hf' : allFree k h := fun st x c hm => hf st x c (List.mem_append_left _ hm)
    by_cases hsame : preparesOf k [e] = []
    · rw [preparesOf_append, hsame, List.append_nil] at hq hne
      have := hd.asked hf' hq hne
      rcases c2 with ⟨h1, _⟩ | ⟨h1, _⟩
      · rw [h1]; exact this
      · exact absurd h1 this
    · cases e with
      | prepare j st x c =>
        by_cases hj : j = k
        · subst hj
          refine step_asks (hf st x c (by simp)) ?_
          rw [preparesOf_append] at hq
          rw [hd.size, hd.waiting]
          simpa [preparesOf] using hq
        · exact absurd (by simp [preparesOf, hj]) hsame
      | _ => exact absurd rfl hsame

theorem During.run {n : Nat} {k : Key} (h1 : List Ev) : ∀ {h : List Ev} {s : State}, During n k h s → (∀ e ∈ h1, ends k e = false) →
    (∀ e ∈ h1, sameSize n e) → During n k (h ++ h1) (h1.foldl AskPp.step s) := by
  induction h1 with
  | nil => intro h s hd _ _; simpa using hd
  | cons e h1 ih =>
    intro h s hd ha hs
    have := ih (hd.step e (ha e List.mem_cons_self) (hs e List.mem_cons_self)) (fun x hx => ha x (List.mem_cons_of_mem _ hx))
      (fun x hx => hs x (List.mem_cons_of_mem _ hx))
    simpa using this

theorem during_run {d : Data} {k : Key} {h0 h1 : List Ev} (hw : Wait d.n k h0 h1) : During d.n k h1 (run d (h0 ++ h1)) := by
  have hc : Clear d.n k (run d h0) :=
    Clear.run h0 (s := { msgs := { data := d } }) ⟨rfl, rfl, rfl⟩ hw.before (fun e he => hw.size e (List.mem_append_left _ he))
  have h0' : During d.n k [] (run d h0) := {
    size := hc.size
    waiting := by rw [hc.waiting]; rfl
    sent := fun v hv => by rw [hc.req] at hv; cases hv
    req := fun v hv => by rw [hc.req] at hv; cases hv
    asked := fun _ _ hne => absurd rfl hne }
  have := During.run h1 h0' hw.during (fun e he => hw.size e (List.mem_append_right _ he))
  rw [List.nil_append] at this
  unfold run at this ⊢
  rw [List.foldl_append]
  exact this

/-- Once asked for, and until the wait ends, the request stays and no further message is sent. -/
theorem locked {k : Key} {v : Option Stash} (h : List Ev) : ∀ {s : State}, s.msgs.reqPP.get? k = some v → (∀ e ∈ h, ends k e = false) →
    (h.foldl step s).msgs.reqPP.get? k = some v ∧ (h.foldl step s).sent.count k = s.sent.count k := by
  induction h with
  | nil => intro s hs _; exact ⟨hs, rfl⟩
  | cons e h ih =>
    intro s hs he
    rcases (step_cases s e k (he e List.mem_cons_self)).2 with ⟨h1, h2⟩ | ⟨h1, _⟩
    · obtain ⟨h3, h4⟩ := ih (s := step s e) (h1.trans hs) (fun x hx => he x (List.mem_cons_of_mem _ hx))
      exact ⟨h3, h4.trans h2⟩
    · rw [hs] at h1; cases h1

theorem takes_eq {s : State} {m : Msg} {v : Option Stash} (h : s.msgs.reqPP.get? (m.viewNo, m.seqNo) = some v)
    (hf : fresh s.msgs.data (m.viewNo, m.seqNo)) :
    takes s m = true ↔ ∀ st, v = some st → (m.digest, m.stateRoot, m.txnRoot) = st := by
  obtain ⟨h1, h2⟩ := hf
  have h1' : notLess (m.viewNo, m.seqNo) s.msgs.data.lastOrdered = false := by simpa [notLess] using h1
  unfold takes valid3pc
  have : (s.msgs.req .prePrepare).get? (m.viewNo, m.seqNo) = some v := h
  rw [this]
  simp only [h1', h2]
  cases v with
  | none => simp
  | some st => simp

theorem takes_other {s : State} {m : Msg} {st : Stash} (h : s.msgs.reqPP.get? (m.viewNo, m.seqNo) = some (some st))
    (hne : (m.digest, m.stateRoot, m.txnRoot) ≠ st) : takes s m = false := by
  unfold takes valid3pc
  have : (s.msgs.req .prePrepare).get? (m.viewNo, m.seqNo) = some (some st) := h
  rw [this]
  simp [hne]

end Verif.AskPp
