import Verif.Model.StashingRouter
/-!
# C28: stashed messages are neither lost nor duplicated, and are replayed in order
-/
namespace Verif.Props
open Verif.Stashing

theorem count_set_flatMap (d : Dict Code (List Msg)) (c : Code) (q : List Msg) (m : Msg) :
    ((d.set c q).flatMap Prod.snd).count m + ((d.get? c).getD []).count m =
      (d.flatMap Prod.snd).count m + q.count m := by
  induction d with
  | nil => simp [Dict.set]
  | cons e d ih =>
    unfold Dict.set
    by_cases h : e.1 = c
    · simp only [h, if_true, List.flatMap_cons, List.count_append, Dict.get?_cons]
      simp
      omega
    · simp only [h, if_false, List.flatMap_cons, List.count_append, Dict.get?_cons]
      omega

theorem count_insertByKey (key : Msg → Nat) (x : Msg) (q : List Msg) (m : Msg) :
    (insertByKey key x q).count m = q.count m + [x].count m := by
  induction q with
  | nil => simp [insertByKey]
  | cons y q ih =>
    unfold insertByKey
    split
    · simp only [List.count_cons, ih, List.count_nil]; omega
    · simp only [List.count_cons, List.count_nil]; omega

theorem push_count {cfg : Cfg} {c : Code} {q q' : List Msg} {x : Msg} (h : push cfg c q x = some q') (m : Msg) :
    q'.count m = q.count m + [x].count m := by
  unfold push at h
  split at h
  · exact absurd h (by simp)
  · split at h
    · cases h; simp [List.count_append]
    · cases h; exact count_insertByKey _ _ _ _

/-- Where a message can be. -/
def whereabouts (s : State) : List Msg :=
  s.processed ++ s.discarded ++ s.dropped ++ s.lost ++ s.queues.flatMap Prod.snd ++
    s.stack.flatMap Frame.msgs ++ s.inbox

/-- Every occurrence of an arrival is accounted for. -/
def Balanced (s : State) : Prop := ∀ m, s.arrived.count m = (whereabouts s).count m

theorem stash_count (cfg : Cfg) (s : State) (c : Code) (x m : Msg) :
    (whereabouts (s.stash cfg c x)).count m = (whereabouts s).count m + [x].count m := by
  unfold State.stash
  split
  · simp only [whereabouts, List.count_append]; omega
  · next q hq =>
    have h1 := push_count hq m
    have h2 := count_set_flatMap s.queues c q m
    unfold State.queue at h1
    simp only [whereabouts, List.count_append]
    omega

theorem stash_stack (cfg : Cfg) (s : State) (c : Code) (x : Msg) :
    (s.stash cfg c x).stack = s.stack ∧ (s.stash cfg c x).arrived = s.arrived := by
  unfold State.stash; split <;> exact ⟨rfl, rfl⟩

theorem Balanced.step {cfg : Cfg} {s : State} (h : Balanced s) (e : Event) : Balanced (s.step cfg e) := by
  intro m
  have h := h m
  cases e with
  | arrive x =>
    simp only [State.step]
    split
    · simp only [whereabouts, List.count_append, List.flatMap_cons, Frame.msgs] at h ⊢; omega
    · exact h
  | takeInbox =>
    simp only [State.step]
    split
    · split
      · exact h
      · next x rest hx =>
        simp only [whereabouts, List.count_append, List.flatMap_cons, Frame.msgs, hx, List.count_cons,
          List.count_nil] at h ⊢
        omega
    · exact h
  | replayAll c =>
    simp only [State.step]
    split
    · unfold State.replayAll
      split
      · exact h
      · have h2 := count_set_flatMap s.queues c [] m
        simp only [whereabouts, List.count_append, List.flatMap_cons, Frame.msgs, State.queue, List.count_nil] at h h2 ⊢
        omega
    · exact h
  | replayUntil c =>
    simp only [State.step]
    split
    · simp only [whereabouts, List.count_append, List.flatMap_cons, Frame.msgs, List.count_nil] at h ⊢; omega
    · exact h
  | advance =>
    simp only [State.step, State.advance]
    split
    · next st hst =>
      simp only [whereabouts, List.count_append, hst, List.flatMap_cons, Frame.msgs, List.count_nil] at h ⊢; omega
    · next x rest st hst =>
      split
      · simp only [whereabouts, List.count_append, hst, List.flatMap_cons, Frame.msgs, List.count_cons, List.count_nil] at h ⊢; omega
      · simp only [whereabouts, List.count_append, hst, List.flatMap_cons, Frame.msgs, List.count_cons, List.count_nil] at h ⊢; omega
    · next c st hst =>
      split
      · simp only [whereabouts, List.count_append, hst, List.flatMap_cons, Frame.msgs, List.count_nil] at h ⊢; omega
      · next x q hq =>
        have h2 := count_set_flatMap s.queues c q m
        unfold State.queue at hq
        rw [hq] at h2
        split
        · simp only [whereabouts, List.count_append, hst, List.flatMap_cons, Frame.msgs, List.count_cons, List.count_nil] at h h2 ⊢; omega
        · simp only [whereabouts, List.count_append, hst, List.flatMap_cons, Frame.msgs, List.count_cons, List.count_nil] at h h2 ⊢; omega
    · exact h
  | verdict r =>
    simp only [State.step, State.verdict]
    split
    · next x st hst =>
      have h0 : s.arrived.count m = (whereabouts { s with stack := st }).count m + [x].count m := by
        simp only [whereabouts, List.count_append, hst, List.flatMap_cons, Frame.msgs] at h ⊢; omega
      split
      · simp only [whereabouts, List.count_append] at h0 ⊢; omega
      · next c =>
        split
        · simp only [whereabouts, List.count_append] at h0 ⊢; omega
        · split
          · simp only [whereabouts, List.count_append] at h0 ⊢; omega
          · have h1 := stash_count cfg { s with stack := st } c x m
            have h2 := (stash_stack cfg { s with stack := st } c x).2
            split
            · next c' st' hst' =>
              have h3 : (whereabouts { State.stash cfg { s with stack := st } c x with stack := st' }).count m =
                  (whereabouts (State.stash cfg { s with stack := st } c x)).count m := by
                simp only [whereabouts, List.count_append, hst', List.flatMap_cons, Frame.msgs, List.count_nil]; omega
              rw [h3, h1, ← h0]
              simp only [h2]
            · rw [h1, ← h0, h2]
    · exact h
  | raise =>
    simp only [State.step]
    split
    · next x st hst =>
      simp only [whereabouts, List.count_append, List.flatMap_nil, List.count_nil] at h ⊢
      omega
    · exact h

theorem run_induct (cfg : Cfg) (P : State → Prop) (h0 : P {}) (hs : ∀ s e, P s → P (s.step cfg e))
    (evs : List Event) : P (run cfg evs) := by
  have : ∀ (evs : List Event) (s : State), P s → P (evs.foldl (State.step cfg) s) := by
    intro evs
    induction evs with
    | nil => intro s h; exact h
    | cons e evs ih => intro s h; exact ih _ (hs _ _ h)
  exact this evs {} h0

/-- C28. At any time, the messages which arrived are exactly (with their
multiplicities) those processed, discarded, dropped because a stash was full, given
up by an exception, stashed, in the hands of the router, or in the inbox. -/
theorem C28_conserved (cfg : Cfg) (evs : List Event) :
    List.Perm (run cfg evs).arrived (whereabouts (run cfg evs)) := by
  rw [List.perm_iff_count]
  exact run_induct cfg Balanced (by intro m; simp [whereabouts]) (fun s e h => h.step e) evs

/-- C28, partial: nothing is given up. Missing: exceptions. If a handler raises one
during a replay, the messages not yet replayed are lost (`C28_lost_by_exception`). -/
theorem C28_no_loss_partial (cfg : Cfg) (evs : List Event) (h : Event.raise ∉ evs) :
    (run cfg evs).lost = [] := by
  have : ∀ (evs : List Event) (s : State), Event.raise ∉ evs → s.lost = [] →
      (evs.foldl (State.step cfg) s).lost = [] := by
    intro evs
    induction evs with
    | nil => intro s _ h; exact h
    | cons e evs ih =>
      intro s he hs
      simp only [List.mem_cons, not_or] at he
      refine ih _ he.2 ?_
      have hstash : ∀ (t : State) c x, t.lost = [] → (t.stash cfg c x).lost = [] := by
        intro t c x ht; unfold State.stash; split <;> exact ht
      cases e with
      | raise => exact absurd rfl he.1
      | arrive x => simp only [State.step]; split <;> exact hs
      | takeInbox => simp only [State.step]; split <;> (try split) <;> exact hs
      | replayAll c =>
        simp only [State.step, State.replayAll]
        repeat' split
        all_goals exact hs
      | replayUntil c => simp only [State.step]; split <;> exact hs
      | advance =>
        simp only [State.step, State.advance]
        repeat' split
        all_goals exact hs
      | verdict r =>
        simp only [State.step, State.verdict]
        repeat' split
        all_goals first | exact hs | exact hstash _ _ _ hs
  exact this evs {} h rfl

/-- Two messages are stashed and replayed; the first handler raises: the second
message is gone, no handler has seen it again. -/
theorem C28_lost_by_exception : ∃ evs : List Event,
    (run ⟨10, fun _ => none, false⟩ evs).lost = [1, 2] ∧
    (run ⟨10, fun _ => none, false⟩ evs).queues = [(3, [])] ∧
    evs = [.arrive 1, .verdict (some 3), .arrive 2, .verdict (some 3), .replayAll 3, .advance, .raise] :=
  ⟨_, by decide, by decide, rfl⟩

/-! ## Order -/

theorem queue_set (s : State) (c : Code) (q : List Msg) (j : Code) (f : State → State)
    (hf : ∀ t, (f t).queues = t.queues) :
    (f { s with queues := s.queues.set c q }).queue j = if c = j then q else s.queue j := by
  unfold State.queue
  rw [hf]
  simp only [Dict.get?_set]
  split <;> simp

/-- The messages of the log concerning stash `c`. -/
def onCode (c : Code) (l : List (Code × Msg)) : List Msg := (l.filter (fun e => e.1 = c)).map Prod.snd

theorem onCode_append (c : Code) (a b : List (Code × Msg)) : onCode c (a ++ b) = onCode c a ++ onCode c b := by
  simp [onCode]

theorem onCode_map (c j : Code) (l : List Msg) :
    onCode j (l.map (fun m => (c, m))) = if c = j then l else [] := by
  unfold onCode
  induction l with
  | nil => split <;> rfl
  | cons x l ih =>
    by_cases h : c = j
    · simp only [h, if_true, List.map_cons] at ih ⊢
      simp [ih]
    · simp only [h, if_false, List.map_cons] at ih ⊢
      simp [h]

/-- What each stash holds, its order and its size. -/
structure QInv (cfg : Cfg) (s : State) : Prop where
  fifo : ∀ c, cfg.key c = none → onCode c s.pushes = onCode c s.pops ++ s.queue c
  sorted : ∀ c key, cfg.key c = some key → (s.queue c).Pairwise (fun a b => key a ≤ key b)
  size : ∀ c, (s.queue c).length ≤ cfg.limit

theorem mem_insertByKey {key : Msg → Nat} {m x : Msg} {q : List Msg} :
    x ∈ insertByKey key m q ↔ x = m ∨ x ∈ q := by
  induction q with
  | nil => simp [insertByKey]
  | cons y q ih =>
    unfold insertByKey
    split
    · simp only [List.mem_cons, ih]
      constructor
      · rintro (h | h | h) <;> simp [h]
      · rintro (h | h | h) <;> simp [h]
    · simp

theorem sorted_insertByKey {key : Msg → Nat} {m : Msg} {q : List Msg}
    (h : q.Pairwise (fun a b => key a ≤ key b)) : (insertByKey key m q).Pairwise (fun a b => key a ≤ key b) := by
  induction q with
  | nil => simp [insertByKey]
  | cons y q ih =>
    have hq := List.pairwise_cons.1 h
    unfold insertByKey
    split
    · next hle =>
      refine List.pairwise_cons.2 ⟨fun x hx => ?_, ih hq.2⟩
      rcases mem_insertByKey.1 hx with hx | hx
      · rw [hx]; exact hle
      · exact hq.1 x hx
    · next hle =>
      refine List.pairwise_cons.2 ⟨fun x hx => ?_, h⟩
      rcases List.mem_cons.1 hx with hx | hx
      · rw [hx]; omega
      · have := hq.1 x hx; omega

theorem length_insertByKey (key : Msg → Nat) (m : Msg) (q : List Msg) :
    (insertByKey key m q).length = q.length + 1 := by
  induction q with
  | nil => rfl
  | cons y q ih => unfold insertByKey; split <;> simp [ih]

theorem QInv.of_eq {cfg : Cfg} {s t : State} (h : QInv cfg s) (h1 : t.queues = s.queues)
    (h2 : t.pushes = s.pushes) (h3 : t.pops = s.pops) : QInv cfg t := by
  have hq : ∀ c, t.queue c = s.queue c := fun c => by unfold State.queue; rw [h1]
  exact ⟨fun c hc => by rw [h2, h3, hq]; exact h.fifo c hc, fun c k hc => by rw [hq]; exact h.sorted c k hc,
    fun c => by rw [hq]; exact h.size c⟩

theorem QInv.stash {cfg : Cfg} {s : State} (h : QInv cfg s) (c : Code) (m : Msg) : QInv cfg (s.stash cfg c m) := by
  unfold State.stash
  split
  · exact h.of_eq rfl rfl rfl
  · next q hq =>
    have hj : ∀ j, ({ s with queues := s.queues.set c q, pushes := s.pushes ++ [(c, m)] } : State).queue j =
        if c = j then q else s.queue j := fun j =>
      queue_set s c q j (fun t => { t with pushes := s.pushes ++ [(c, m)] }) (fun _ => rfl)
    unfold push at hq
    split at hq
    · exact absurd hq (by simp)
    · next hl =>
      refine ⟨fun j hk => ?_, fun j key hk => ?_, fun j => ?_⟩
      · rw [hj]
        simp only [onCode_append]
        by_cases e : c = j
        · subst e
          rw [hk] at hq
          simp only [Option.some.injEq] at hq
          rw [if_pos rfl, ← hq, h.fifo c hk]
          simp [onCode]
        · rw [if_neg e, h.fifo j hk]
          simp [onCode, e]
      · rw [hj]
        by_cases e : c = j
        · subst e
          rw [hk] at hq
          simp only [Option.some.injEq] at hq
          rw [if_pos rfl, ← hq]
          exact sorted_insertByKey (h.sorted c key hk)
        · rw [if_neg e]; exact h.sorted j key hk
      · rw [hj]
        by_cases e : c = j
        · subst e
          rw [if_pos rfl]
          split at hq
          · cases hq; simp; omega
          · cases hq; rw [length_insertByKey]; omega
        · rw [if_neg e]; exact h.size j

theorem QInv.step {cfg : Cfg} {s : State} (h : QInv cfg s) (e : Event) : QInv cfg (s.step cfg e) := by
  cases e with
  | arrive x => simp only [State.step]; split <;> exact h.of_eq rfl rfl rfl
  | takeInbox => simp only [State.step]; split <;> (try split) <;> exact h.of_eq rfl rfl rfl
  | replayAll c =>
    simp only [State.step, State.replayAll]
    split
    · split
      · exact h
      · have hj : ∀ j, ({ s with
            stack := .all (s.queue c) :: s.stack
            queues := s.queues.set c []
            pops := s.pops ++ (s.queue c).map (fun m => (c, m)) } : State).queue j =
            if c = j then [] else s.queue j := fun j =>
          queue_set s c [] j (fun t => { t with stack := .all (s.queue c) :: s.stack, pops := s.pops ++ (s.queue c).map (fun m => (c, m)) }) (fun _ => rfl)
        refine ⟨fun j hk => ?_, fun j key hk => ?_, fun j => ?_⟩
        · rw [hj]
          simp only [onCode_append, onCode_map]
          by_cases e : c = j
          · subst e; simp [h.fifo c hk]
          · simp [e, h.fifo j hk]
        · rw [hj]; split
          · exact .nil
          · exact h.sorted j key hk
        · rw [hj]; split
          · simp
          · exact h.size j
    · exact h
  | replayUntil c => simp only [State.step]; split <;> exact h.of_eq rfl rfl rfl
  | advance =>
    simp only [State.step, State.advance]
    split
    · exact h.of_eq rfl rfl rfl
    · split <;> exact h.of_eq rfl rfl rfl
    · next c st hst =>
      split
      · exact h.of_eq rfl rfl rfl
      · next x q hq =>
        have h0 : QInv cfg { s with queues := s.queues.set c q, pops := s.pops ++ [(c, x)] } := by
          have hj : ∀ j, ({ s with queues := s.queues.set c q, pops := s.pops ++ [(c, x)] } : State).queue j =
              if c = j then q else s.queue j := fun j =>
            queue_set s c q j (fun t => { t with pops := s.pops ++ [(c, x)] }) (fun _ => rfl)
          refine ⟨fun j hk => ?_, fun j key hk => ?_, fun j => ?_⟩
          · rw [hj]
            simp only [onCode_append]
            by_cases e : c = j
            · subst e
              rw [if_pos rfl, h.fifo c hk, hq]
              simp [onCode]
            · rw [if_neg e, h.fifo j hk]
              simp [onCode, e]
          · rw [hj]; split
            · next e =>
              subst e
              have := h.sorted c key hk
              rw [hq] at this
              exact (List.pairwise_cons.1 this).2
            · exact h.sorted j key hk
          · rw [hj]; split
            · next e =>
              subst e
              have := h.size c
              rw [hq] at this
              simp at this; omega
            · exact h.size j
        split <;> exact h0.of_eq rfl rfl rfl
    · exact h
  | verdict r =>
    simp only [State.step, State.verdict]
    split
    · next x st hst =>
      have h0 : QInv cfg { s with stack := st } := h.of_eq rfl rfl rfl
      split
      · exact h.of_eq rfl rfl rfl
      · split
        · exact h.of_eq rfl rfl rfl
        · split
          · exact h.of_eq rfl rfl rfl
          · split
            · exact (h0.stash _ x).of_eq rfl rfl rfl
            · exact h0.stash _ x
    · exact h
  | raise => simp only [State.step]; split <;> exact h.of_eq rfl rfl rfl

theorem qinv_run (cfg : Cfg) (evs : List Event) : QInv cfg (run cfg evs) :=
  run_induct cfg (QInv cfg) ⟨fun _ _ => rfl, fun _ _ _ => .nil, fun _ => by simp [State.queue]⟩
    (fun _ e h => h.step e) evs

/-- C28. An ordinary stash is first in, first out: what was taken out, followed by
what it holds, is what was put in, in the order it was put in. -/
theorem C28_fifo (cfg : Cfg) (evs : List Event) (c : Code) (h : cfg.key c = none) :
    onCode c (run cfg evs).pushes = onCode c (run cfg evs).pops ++ (run cfg evs).queue c :=
  (qinv_run cfg evs).fifo c h

/-- C28. A sorted stash is in order of its key at any time, and a replay of the
whole stash takes all of it in this order. -/
theorem C28_sorted (cfg : Cfg) (evs : List Event) (c : Code) (key : Msg → Nat) (h : cfg.key c = some key)
    (hf : (run cfg evs).free = true) (hne : (run cfg evs).queue c ≠ []) :
    ∃ data, ((run cfg evs).step cfg (.replayAll c)).stack = .all data :: (run cfg evs).stack ∧
      ((run cfg evs).step cfg (.replayAll c)).queue c = [] ∧
      data = (run cfg evs).queue c ∧ data.Pairwise (fun a b => key a ≤ key b) := by
  refine ⟨_, ?_, ?_, rfl, (qinv_run cfg evs).sorted c key h⟩
  · simp [State.step, hf, State.replayAll, hne]
  · simp only [State.step, hf, if_true, State.replayAll, hne, if_false]
    simp [State.queue, Dict.get?_set]

/-- C28. No stash exceeds the limit, and a message is dropped only when its stash is
full. -/
theorem C28_limit (cfg : Cfg) (evs : List Event) (c : Code) :
    ((run cfg evs).queue c).length ≤ cfg.limit ∧
    (∀ m, ((run cfg evs).stash cfg c m).dropped ≠ (run cfg evs).dropped →
      ((run cfg evs).queue c).length = cfg.limit) := by
  have hs := (qinv_run cfg evs).size c
  refine ⟨hs, fun m hm => ?_⟩
  unfold State.stash push at hm
  split at hm
  · next hp =>
    split at hp
    · omega
    · split at hp <;> exact absurd hp (by simp)
  · exact absurd rfl hm

def cfgSorted : Cfg := ⟨2, fun c => if c = 5 then some id else none, false⟩

-- a full sorted stash drops the third message; the replay is in order of the key,
-- and a nested arrival is stashed elsewhere
example : (run cfgSorted [.arrive 9, .verdict (some 5), .arrive 4, .verdict (some 5), .arrive 7, .verdict (some 5),
    .replayAll 5, .advance, .arrive 8, .verdict (some 3), .verdict none, .advance, .verdict (some (-1)), .advance]) =
    { queues := [(5, []), (3, [8])], arrived := [9, 4, 7, 8], dropped := [7], processed := [4], discarded := [9]
      pushes := [(5, 9), (5, 4), (3, 8)], pops := [(5, 4), (5, 9)] } := by decide

/-- With an `unstash_handler`, a replay "until the first message is stashed again"
stops after one message, although that message is not stashed again. -/
theorem C28_until_stops : ∃ evs : List Event, ∀ s, s = run ⟨10, fun _ => none, true⟩ evs →
    s.stack = [] ∧ s.inbox = [1] ∧ s.queues = [(3, [2])] ∧
    evs = [.arrive 1, .verdict (some 3), .arrive 2, .verdict (some 3), .replayUntil 3, .advance] :=
  ⟨_, by rintro s rfl; exact ⟨by decide, by decide, by decide, rfl⟩⟩

end Verif.Props
