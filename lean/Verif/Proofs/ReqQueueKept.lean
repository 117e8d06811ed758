import Verif.Proofs.ReqQueue
/-! A request in a queue stays in a queue or in a batch which is not ordered, or leaves for a reason. -/
namespace Verif.ReqQueue
open Verif

/-- What holds in every state of an instance. -/
structure W (s : St) : Prop where
  view : ∀ k, s.batches.has k = true → k.1 = s.view
  last : ∀ k, s.batches.has k = true → later s.lastOrdered k = true → k.2 ≤ s.lastPp
  ledger : ∀ k l, s.batches.get? k = some l → s.queues.has l = true
  ordered : s.lastOrdered.2 ≤ s.lastPp
  nodup : s.batches.keys.Nodup
  sent : ∀ k, s.sent.has k = true → k.1 = s.view
  got : ∀ k, s.got.has k = true → k.1 = s.view

theorem W.pp {s : St} (w : W s) {k : K3} {pp : PP} (h : s.pp k = some pp) : k.1 = s.view := by
  unfold St.pp at h
  split at h
  · exact w.sent k (by assumption)
  · exact w.got k (by simp [Dict.has, h])

/-- Where a request may be. -/
def Held (s : St) (r : Req) : Prop := Queued s r ∨ ∃ k, InBatch s k r

/-- A request which is held stays held or leaves. -/
def Kept (s s' : St) (o : List Out) : Prop := ∀ r, Held s r → Held s' r ∨ ∃ why, Out.left r why ∈ o

theorem Kept.refl (s : St) (o : List Out) : Kept s s o := fun _ h => .inl h

theorem Kept.trans {s s' s'' : St} {o o' : List Out} (h : Kept s s' o) (h' : Kept s' s'' o') : Kept s s'' (o ++ o') := by
  intro r hr
  rcases h r hr with h | ⟨w, h⟩
  · rcases h' r h with h | ⟨w, h⟩
    · exact .inl h
    · exact .inr ⟨w, List.mem_append_right _ h⟩
  · exact .inr ⟨w, List.mem_append_left _ h⟩

/-! ## Sending -/

/-- What `sendBatch` does. -/
theorem sendBatch_spec {c : Cfg} {v : List Req → Req → Verdict} {s : St} {l : Nat} {x : St × List Out}
    (h : sendBatch c v s l = some x) : ∃ q t, s.queues.get? l = some q ∧ Took c.maxSize s.reqs (verdict c v) q {} t ∧
      x.1 = { s with queues := s.queues.set l t.rest, lastPp := s.lastPp + 1,
                     sent := s.sent.set (s.view, s.lastPp + 1) ⟨(s.view, s.lastPp + 1), l, t.reqs, t.bad⟩,
                     batches := s.batches.set (s.view, s.lastPp + 1) l } ∧
      x.2 = t.gone.map (fun e => Out.left e.1 e.2) ++ [.sent ⟨(s.view, s.lastPp + 1), l, t.reqs, t.bad⟩] := by
  unfold sendBatch at h
  split at h
  · cases h
  · rename_i q hq
    split at h
    · cases h
    · rename_i t ht
      dsimp only at h
      cases h
      exact ⟨q, t, hq, consume_took _ _ _ _ _ _ ht, rfl, rfl⟩

theorem sendBatch_W {c : Cfg} {v : List Req → Req → Verdict} {s : St} {l : Nat} {x : St × List Out}
    (h : sendBatch c v s l = some x) (w : W s) : W x.1 := by
  obtain ⟨q, t, hq, ht, h1, h2⟩ := sendBatch_spec h
  rw [h1]
  have hl : ∀ m, (s.queues.set l t.rest).has m = s.queues.has m := by
    intro m
    rw [has_set]
    by_cases e : m = l
    · subst e; simp [Dict.has, hq]
    · simp [e]
  refine ⟨?_, ?_, ?_, ?_, Dict.nodup_keys_set w.nodup _ _, ?_, w.got⟩
  · intro k hk
    dsimp only at hk ⊢
    rw [has_set] at hk
    by_cases e : k = (s.view, s.lastPp + 1)
    · rw [e]
    · simp [e] at hk; exact w.view k hk
  · intro k hk hla
    dsimp only at hk hla ⊢
    rw [has_set] at hk
    by_cases e : k = (s.view, s.lastPp + 1)
    · rw [e]; exact Nat.le_refl _
    · simp [e] at hk; have := w.last k hk hla; omega
  · intro k m hm
    dsimp only at hm ⊢
    rw [hl]
    rw [get_set] at hm
    split at hm
    · cases hm; simp [Dict.has, hq]
    · exact w.ledger k m hm
  · have := w.ordered; dsimp only; omega
  · intro k hk
    dsimp only at hk ⊢
    rw [has_set] at hk
    by_cases e : k = (s.view, s.lastPp + 1)
    · rw [e]
    · simp [e] at hk; exact w.sent k hk

theorem sendBatch_kept {c : Cfg} {v : List Req → Req → Verdict} {s : St} {l : Nat} {x : St × List Out}
    (h : sendBatch c v s l = some x) (w : W s) : Kept s x.1 x.2 := by
  obtain ⟨q, t, hq, ht, h1, h2⟩ := sendBatch_spec h
  have hnew : later s.lastOrdered (s.view, s.lastPp + 1) = true := by
    have := w.ordered; simp [later]; omega
  intro r hr
  rcases hr with ⟨m, p, hm, hp⟩ | ⟨k, hk⟩
  · by_cases e : m = l
    · subst e
      rw [hq] at hm; cases hm
      obtain ⟨used, hu, _, _, hu2⟩ := ht.split
      rw [hu] at hp
      rcases List.mem_append.1 hp with hp | hp
      · rcases hu2 r hp with h | ⟨why, h⟩
        · refine .inl (.inr ⟨(s.view, s.lastPp + 1), ?_⟩)
          rw [h1]
          exact ⟨hnew, by dsimp only; rw [has_set]; simp, _, by unfold St.pp; dsimp only; rw [has_set, get_set]; simp; rfl, h⟩
        · exact .inr ⟨why, by rw [h2]; exact List.mem_append_left _ (List.mem_map.2 ⟨_, h, rfl⟩)⟩
      · refine .inl (.inl ⟨m, t.rest, ?_, hp⟩)
        rw [h1]; dsimp only; rw [get_set]; simp
    · refine .inl (.inl ⟨m, p, ?_, hp⟩)
      rw [h1]; dsimp only; rw [get_set, if_neg e]; exact hm
  · obtain ⟨ha, hb, pp, hp, hr⟩ := hk
    refine .inl (.inr ⟨k, ?_⟩)
    have e : k ≠ (s.view, s.lastPp + 1) := by
      intro e
      have := w.last k hb ha
      rw [e] at this; dsimp only at this; omega
    rw [h1]
    refine ⟨ha, by dsimp only; rw [has_set, hb]; simp, pp, ?_, hr⟩
    unfold St.pp at hp ⊢
    dsimp only
    rw [has_set, get_set]
    simp only [e, decide_false, Bool.false_or, if_false]
    exact hp

theorem sendAll_ok {c : Cfg} {v : Nat → List Req → Req → Verdict} {skip : St → List Nat → Nat → Bool} :
    ∀ {ls : List Nat} {x : St × List Nat} {y : (St × List Nat) × List Out}, sendAll c v skip ls x = some y →
      W x.1 → W y.1.1 ∧ Kept x.1 y.1.1 y.2 := by
  intro ls
  induction ls with
  | nil => intro x y h w; simp only [sendAll, Option.some.injEq] at h; subst h; exact ⟨w, Kept.refl _ _⟩
  | cons l ls ih =>
    intro x y h w
    rw [sendAll] at h
    split at h
    · exact ih h w
    · split at h
      · cases h
      · rename_i a ha
        split at h
        · cases h
        · rename_i b hb
          cases h
          obtain ⟨h1, h2⟩ := ih hb (sendBatch_W ha w)
          exact ⟨h1, (sendBatch_kept ha w).trans h2⟩

theorem tick_ok {c : Cfg} {v : Nat → List Req → Req → Verdict} {now : Nat} {old : List Nat} {s : St} {x : St × List Out}
    (h : tick c v now old s = some x) (w : W s) : W x.1 ∧ Kept s x.1 x.2 := by
  unfold tick at h
  split at h
  · split at h
    · cases h
    · rename_i a ha
      split at h
      · cases h
      · rename_i b hb
        split at h
        · cases h
        · rename_i d hd
          cases h
          obtain ⟨w1, k1⟩ := sendAll_ok ha w
          obtain ⟨w2, k2⟩ := sendAll_ok hb w1
          have h3 : W d.1.1 ∧ Kept b.1.1 d.1.1 d.2 := by
            unfold primariesBatch at hd
            split at hd
            · obtain ⟨u1, u2⟩ := sendAll_ok hd (⟨w2.1, w2.2, w2.3, w2.4, w2.5, w2.6, w2.7⟩ : W { b.1.1 with primariesBatch := false })
              exact ⟨u1, fun r hr => u2 r hr⟩
            · cases hd; exact ⟨w2, Kept.refl _ _⟩
          have h4 := k1.trans (k2.trans h3.2)
          dsimp only
          split
          · exact ⟨h3.1, h4⟩
          · exact ⟨⟨h3.1.1, h3.1.2, h3.1.3, h3.1.4, h3.1.5, h3.1.6, h3.1.7⟩, h4⟩
  · cases h; exact ⟨w, Kept.refl _ _⟩

/-- A relation which every single batch respects is respected by a call of `send_3pc_batch`. -/
theorem sendAll_rel {R : St → St → List Out → Prop} (refl : ∀ s, R s s [])
    (trans : ∀ {s s' s'' o o'}, R s s' o → R s' s'' o' → R s s'' (o ++ o')) {c : Cfg} {v : Nat → List Req → Req → Verdict}
    (send : ∀ {s l x}, sendBatch c (v l) s l = some x → R s x.1 x.2) {skip : St → List Nat → Nat → Bool} :
    ∀ {ls : List Nat} {x : St × List Nat} {y : (St × List Nat) × List Out}, sendAll c v skip ls x = some y → R x.1 y.1.1 y.2 := by
  intro ls
  induction ls with
  | nil => intro x y h; simp only [sendAll, Option.some.injEq] at h; subst h; exact refl _
  | cons l ls ih =>
    intro x y h
    rw [sendAll] at h
    split at h
    · exact ih h
    · split at h
      · cases h
      · rename_i a ha
        split at h
        · cases h
        · rename_i b hb
          cases h
          exact trans (send ha) (ih hb)

theorem tick_rel {R : St → St → List Out → Prop} (refl : ∀ s, R s s [])
    (trans : ∀ {s s' s'' o o'}, R s s' o → R s' s'' o' → R s s'' (o ++ o'))
    (flag : ∀ s b n, R s { s with primariesBatch := b, lastCreated := n } [])
    {c : Cfg} {v : Nat → List Req → Req → Verdict}
    (send : ∀ {s l x}, sendBatch c (v l) s l = some x → R s x.1 x.2) {now : Nat} {old : List Nat} {s : St} {x : St × List Out}
    (h : tick c v now old s = some x) : R s x.1 x.2 := by
  unfold tick at h
  split at h
  · split at h
    · cases h
    · rename_i a ha
      split at h
      · cases h
      · rename_i b hb
        split at h
        · cases h
        · rename_i d hd
          cases h
          have k1 := sendAll_rel refl trans send ha
          have k2 := sendAll_rel refl trans send hb
          have h3 : R b.1.1 d.1.1 d.2 := by
            unfold primariesBatch at hd
            split at hd
            · exact trans (o := []) (flag b.1.1 false b.1.1.lastCreated) (sendAll_rel refl trans send hd)
            · cases hd; exact refl _
          have h4 := trans k1 (trans k2 h3)
          dsimp only at h4 ⊢
          split
          · exact h4
          · have := trans h4 (flag d.1.1 d.1.1.primariesBatch now)
            rw [List.append_nil] at this
            exact this
  · cases h; exact refl _

theorem tick_outs {c : Cfg} {v : Nat → List Req → Req → Verdict} {now : Nat} {old : List Nat} {s : St} {x : St × List Out}
    (h : tick c v now old s = some x) : ∀ o ∈ x.2, (∃ r why, o = .left r why) ∨ ∃ pp, o = .sent pp := by
  refine tick_rel (R := fun _ _ o => ∀ a ∈ o, (∃ r why, a = .left r why) ∨ ∃ pp, a = .sent pp) ?_ ?_ ?_ ?_ h
  · intro s a ha; simp at ha
  · intro s s' s'' o o' h1 h2 a ha
    rcases List.mem_append.1 ha with h | h
    · exact h1 a h
    · exact h2 a h
  · intro s b n a ha; simp at ha
  · intro s l x hx a ha
    obtain ⟨q, t, _, _, _, h2⟩ := sendBatch_spec hx
    rw [h2] at ha
    rcases List.mem_append.1 ha with h | h
    · obtain ⟨e, _, rfl⟩ := List.mem_map.1 h
      exact .inl ⟨_, _, rfl⟩
    · simp at h; exact .inr ⟨_, h⟩

theorem caughtUpAll_outs (es : List (K3 × PP)) : ∀ (x : St × List Out), (∀ o ∈ x.2, ∃ r why, o = .left r why) →
    ∀ o ∈ (es.foldl caughtUpOne x).2, ∃ r why, o = Out.left r why := by
  induction es with
  | nil => intro x h; exact h
  | cons e es ih =>
    intro x h
    refine ih _ ?_
    intro o ho
    unfold caughtUpOne at ho
    rcases List.mem_append.1 ho with ho | ho
    · exact h o ho
    · obtain ⟨r, _, rfl⟩ := List.mem_map.1 ho
      exact ⟨_, _, rfl⟩

theorem caughtUp_outs (c : Cfg) (s : St) (k : K3) : ∀ o ∈ (caughtUp c s k).2, ∃ r why, o = Out.left r why := by
  unfold caughtUp
  split
  · split
    · exact caughtUpAll_outs _ _ (by simp)
    · split <;> simp
  · simp

/-! ## Reverting -/

theorem revert_same (s : St) : Same s (revert s) := (revertKeys _ s).1

theorem mem_reverted {s : St} (w : W s) {k : K3} (hb : s.batches.has k = true) (hl : later s.lastOrdered k = true) :
    k ∈ (sortDown s.batches.keys).takeWhile (fun k => later s.lastOrdered k) :=
  takeWhile_sorted _ (sortDown_sorted s.view fun j hj => w.view j ((has_mem_keys _ _).2 hj))
    (sortDown_mem.2 ((has_mem_keys _ _).1 hb)) hl

theorem revert_has {s : St} (w : W s) (k : K3) :
    (revert s).batches.has k = true ↔ s.batches.has k = true ∧ later s.lastOrdered k = false := by
  have h := (revertKeys ((sortDown s.batches.keys).takeWhile (fun k => later s.lastOrdered k)) s).2.1 k
  have hu : (revert s).batches.get? k = _ := h
  unfold Dict.has
  rw [hu]
  constructor
  · intro hk
    split at hk
    · cases hk
    · rename_i hn
      refine ⟨hk, ?_⟩
      cases e : later s.lastOrdered k
      · rfl
      · exact absurd (mem_reverted w hk e) hn
  · rintro ⟨h1, h2⟩
    split
    · rename_i hm
      have := List.all_takeWhile (p := fun k => later s.lastOrdered k) (l := sortDown s.batches.keys)
      have := List.all_eq_true.1 this k hm
      simp [h2] at this
    · exact h1

/-- The batches which are reverted have different numbers after the last ordered one. -/
theorem reverted_count {s : St} (w : W s) :
    ((sortDown s.batches.keys).takeWhile (fun k => later s.lastOrdered k)).length ≤ s.lastPp - s.lastOrdered.2 := by
  have hmem : ∀ k ∈ (sortDown s.batches.keys).takeWhile (fun k => later s.lastOrdered k),
      s.batches.has k = true ∧ later s.lastOrdered k = true := by
    intro k hk
    refine ⟨(has_mem_keys _ _).2 (sortDown_mem.1 ((List.takeWhile_sublist _).subset hk)), ?_⟩
    have := List.all_takeWhile (p := fun k => later s.lastOrdered k) (l := sortDown s.batches.keys)
    exact List.all_eq_true.1 this k hk
  have hnd : ((sortDown s.batches.keys).takeWhile (fun k => later s.lastOrdered k)).Nodup :=
    ((sortDown_perm _).nodup_iff.2 w.nodup).sublist (List.takeWhile_sublist _)
  generalize (sortDown s.batches.keys).takeWhile (fun k => later s.lastOrdered k) = L at hmem hnd
  have hnd2 : (L.map Prod.snd).Nodup := by
    unfold List.Nodup
    rw [List.pairwise_map]
    apply List.Pairwise.imp_of_mem ?_ hnd
    intro a b ha hb hab e
    apply hab
    have h1 := w.view a (hmem a ha).1
    have h2 := w.view b (hmem b hb).1
    exact Prod.ext (h1.trans h2.symm) e
  have := length_le_of_subset hnd2 (B := List.range' (s.lastOrdered.2 + 1) (s.lastPp - s.lastOrdered.2)) (by
    intro n hn
    obtain ⟨k, hk, rfl⟩ := List.mem_map.1 hn
    have h1 := w.last k (hmem k hk).1 (hmem k hk).2
    have h2 := (hmem k hk).2
    simp [later] at h2
    rw [List.mem_range']
    exact ⟨k.2 - (s.lastOrdered.2 + 1), by omega, by omega⟩)
  simpa using this

theorem revert_W {s : St} (w : W s) : W (revert s) := by
  have hs := revert_same s
  have hk := revertKeys ((sortDown s.batches.keys).takeWhile (fun k => later s.lastOrdered k)) s
  refine ⟨?_, ?_, ?_, ?_, hk.2.2.2.1 w.nodup, by rw [hs.sent, hs.view]; exact w.sent, by rw [hs.got, hs.view]; exact w.got⟩
  · intro k h
    rw [hs.view]
    exact w.view k ((revert_has w k).1 h).1
  · intro k h hl
    have := ((revert_has w k).1 h).2
    rw [hs.lastOrdered, this] at hl
    cases hl
  · intro k l hl
    rw [hs.hasQ]
    have h2 : (revert s).batches.get? k = _ := hk.2.1 k
    rw [h2] at hl
    split at hl
    · cases hl
    · exact w.ledger k l hl
  · rw [hs.lastOrdered]
    have h1 : s.lastPp ≤ (revert s).lastPp + _ := hk.2.2.1
    have := reverted_count w
    have := w.ordered
    omega

theorem revert_queued {s : St} (w : W s) {r : Req} (h : Held s r) : Queued (revert s) r := by
  have hk := revertKeys ((sortDown s.batches.keys).takeWhile (fun k => later s.lastOrdered k)) s
  rcases h with h | ⟨k, h⟩
  · exact hk.2.2.2.2.1 r h
  · exact hk.2.2.2.2.2 w.ledger k r (mem_reverted w h.2.1 h.1) h


/-! ## Leaving -/

theorem discard_fields (s : St) (l : Nat) (r : Req) : Same s (discard s l r) ∧ (discard s l r).batches = s.batches ∧
    (discard s l r).lastPp = s.lastPp := by
  unfold discard
  split
  · exact ⟨⟨rfl, rfl, rfl, rfl, rfl, fun _ => rfl, rfl⟩, rfl, rfl⟩
  · rename_i q hq
    refine ⟨⟨rfl, rfl, rfl, rfl, rfl, fun m => ?_, keys_set _ _ _ (by simp [Dict.has, hq])⟩, rfl, rfl⟩
    dsimp only
    rw [has_set]
    by_cases e : m = l
    · subst e; simp [Dict.has, hq]
    · simp [e]

theorem Same.trans {s s' s'' : St} (h : Same s s') (h' : Same s' s'') : Same s s'' :=
  ⟨h'.sent.trans h.sent, h'.got.trans h.got, h'.view.trans h.view, h'.lastOrdered.trans h.lastOrdered, h'.reqs.trans h.reqs,
   fun l => (h'.hasQ l).trans (h.hasQ l), h'.keysQ.trans h.keysQ⟩

theorem Same.refl (s : St) : Same s s := ⟨rfl, rfl, rfl, rfl, rfl, fun _ => rfl, rfl⟩

theorem discard_queued (s : St) (l : Nat) (a : Req) {r : Req} (h : Queued s r) : Queued (discard s l a) r ∨ r = a := by
  by_cases hra : r = a
  · exact .inr hra
  refine .inl ?_
  unfold discard
  split
  · exact h
  · rename_i q hq
    obtain ⟨m, p, hm, hr⟩ := h
    by_cases e : m = l
    · subst e
      rw [hq] at hm; cases hm
      exact ⟨m, dropQ q a, by dsimp only; rw [get_set]; simp, by simp [dropQ, hr, hra]⟩
    · exact ⟨m, p, by dsimp only; rw [get_set, if_neg e]; exact hm, hr⟩

theorem discardAll_fields (l : Nat) (rs : List Req) : ∀ (s : St), Same s (discardAll s l rs) ∧
    (discardAll s l rs).batches = s.batches ∧ (discardAll s l rs).lastPp = s.lastPp := by
  induction rs with
  | nil => intro s; exact ⟨Same.refl s, rfl, rfl⟩
  | cons a rs ih =>
    intro s
    obtain ⟨h1, h2, h3⟩ := ih (discard s l a)
    obtain ⟨g1, g2, g3⟩ := discard_fields s l a
    exact ⟨g1.trans h1, h2.trans g2, h3.trans g3⟩

theorem discardAll_queued (l : Nat) (rs : List Req) : ∀ (s : St) {r : Req}, Queued s r → Queued (discardAll s l rs) r ∨ r ∈ rs := by
  induction rs with
  | nil => intro s r h; exact .inl h
  | cons a rs ih =>
    intro s r h
    rcases discard_queued s l a h with h | rfl
    · rcases ih _ h with h | h
      · exact .inl h
      · exact .inr (List.mem_cons_of_mem _ h)
    · exact .inr List.mem_cons_self

theorem W.of_same {s s' : St} (w : W s) (h : Same s s') (hb : s'.batches = s.batches) (hp : s'.lastPp = s.lastPp) : W s' := by
  refine ⟨?_, ?_, ?_, ?_, by rw [hb]; exact w.nodup, by rw [h.sent, h.view]; exact w.sent, by rw [h.got, h.view]; exact w.got⟩
  · rw [hb, h.view]; exact w.view
  · rw [hb, h.lastOrdered, hp]; exact w.last
  · intro k l; rw [hb, h.hasQ]; exact w.ledger k l
  · rw [h.lastOrdered, hp]; exact w.ordered

theorem Same.inBatch {s s' : St} (h : Same s s') (hb : s'.batches = s.batches) {k : K3} {r : Req} (hi : InBatch s k r) : InBatch s' k r := by
  unfold InBatch at hi ⊢
  rw [h.lastOrdered, hb, h.pp]; exact hi

theorem discardAll_kept (s : St) (l : Nat) (rs : List Req) (why : Why) :
    Kept s (discardAll s l rs) (rs.map (fun r => .left r why)) := by
  intro r h
  obtain ⟨h1, h2, _⟩ := discardAll_fields l rs s
  rcases h with h | ⟨k, h⟩
  · rcases discardAll_queued l rs s h with h | h
    · exact .inl (.inl h)
    · exact .inr ⟨why, List.mem_map.2 ⟨r, h, rfl⟩⟩
  · exact .inl (.inr ⟨k, h1.inBatch h2 h⟩)

theorem setOrdered_W {s : St} (w : W s) (k : K3) (hk : later s.lastOrdered k = true) : W (setOrdered s k) := by
  simp [later] at hk
  refine ⟨w.view, ?_, w.ledger, ?_, w.nodup, w.sent, w.got⟩
  · intro j hj hl
    unfold setOrdered at hl ⊢
    dsimp only at hl ⊢
    have : later s.lastOrdered j = true := by simp [later] at hl ⊢; omega
    have := w.last j hj this
    omega
  · unfold setOrdered; dsimp only; omega

theorem order_ok (s : St) (k : K3) (w : W s) : W (order s k).1 ∧ Kept s (order s k).1 (order s k).2 := by
  unfold order
  split
  · exact ⟨w, Kept.refl _ _⟩
  · rename_i pp hpp
    split
    · rename_i hn
      unfold isNext at hn
      simp only [Bool.and_eq_true, List.all_eq_true, Bool.or_eq_true, Bool.not_eq_true'] at hn
      obtain ⟨h1, h2, h3⟩ := discardAll_fields pp.ledger pp.reqs (setOrdered s k)
      refine ⟨(setOrdered_W w k hn.1).of_same h1 h2 h3, ?_⟩
      intro r hr
      have hd := discardAll_kept (setOrdered s k) pp.ledger pp.reqs .ordered r
      rcases hr with hr | ⟨j, hj⟩
      · exact hd (.inl hr)
      · by_cases hl : later k j = true
        · exact hd (.inr ⟨j, hl, hj.2.1, hj.2.2⟩)
        · rcases hn.2 j ((has_mem_keys _ _).1 hj.2.1) with h | h
          · rw [hj.1] at h; cases h
          · have e : j.2 = k.2 := by simp [later] at hl h; omega
            have e1 : j = k := Prod.ext ((w.view j hj.2.1).trans (w.pp hpp).symm) e
            subst e1
            obtain ⟨_, _, pp', hp', hr⟩ := hj
            rw [hpp] at hp'; cases hp'
            exact .inr ⟨.ordered, List.mem_map.2 ⟨r, hr, rfl⟩⟩
    · exact ⟨w, Kept.refl _ _⟩


theorem filter_has {κ α : Type} [DecidableEq κ] (d : Dict κ α) (p : κ → Bool) (j : κ) :
    Dict.get? (d.filter (fun e => p e.1)) j = if p j then d.get? j else none := Dict.get?_filter d p j

theorem get_map (d : Dict Nat (List Req)) (f : List Req → List Req) (l : Nat) :
    Dict.get? (d.map (fun e => (e.1, f e.2))) l = (d.get? l).map f := by
  induction d with
  | nil => rfl
  | cons e d ih =>
    rw [List.map_cons, Dict.get?_cons, Dict.get?_cons]
    split
    · rfl
    · exact ih

theorem has_map (d : Dict Nat (List Req)) (f : List Req → List Req) (l : Nat) :
    Dict.has (d.map (fun e => (e.1, f e.2))) l = d.has l := by
  unfold Dict.has; rw [get_map]; simp

theorem pp_mem {s : St} {k : K3} {pp : PP} (h : s.pp k = some pp) : (k, pp) ∈ s.sent ++ s.got := by
  unfold St.pp at h
  split at h
  · exact List.mem_append_left _ (Dict.mem_of_get? h)
  · exact List.mem_append_right _ (Dict.mem_of_get? h)

theorem gc_ok (s : St) (k : K3) (w : W s) : W (gc s k).1 ∧ Kept s (gc s k).1 (gc s k).2 := by
  have hb : ∀ j, (gc s k).1.batches.get? j = if j ∉ ((s.sent ++ s.got).map Prod.fst).filter (fun j => !later k j) then
      s.batches.get? j else none := by
    intro j
    have := filter_has s.batches (fun j => decide (j ∉ ((s.sent ++ s.got).map Prod.fst).filter (fun j => !later k j))) j
    simp only [decide_eq_true_eq] at this
    exact this
  have hbsub : ∀ j l, (gc s k).1.batches.get? j = some l → s.batches.get? j = some l := by
    intro j l h
    rw [hb] at h
    split at h
    · exact h
    · cases h
  have hbh : ∀ j, (gc s k).1.batches.has j = true → s.batches.has j = true := by
    intro j h
    obtain ⟨l, hl⟩ := (Dict.has_iff _ _).1 h
    exact (Dict.has_iff _ _).2 ⟨l, hbsub j l hl⟩
  have hsent : ∀ j, (gc s k).1.sent.get? j = if later k j then s.sent.get? j else none := fun j => filter_has s.sent (later k) j
  have hgot : ∀ j, (gc s k).1.got.get? j = if later k j then s.got.get? j else none := fun j => filter_has s.got (later k) j
  constructor
  · refine ⟨fun j h => w.view j (hbh j h), fun j h => w.last j (hbh j h), ?_, w.ordered, Dict.nodup_keys_filter w.nodup _, ?_, ?_⟩
    · intro j l h
      have : (gc s k).1.queues.has l = s.queues.has l := has_map ..
      rw [this]
      exact w.ledger j l (hbsub j l h)
    · intro j h
      refine w.sent j ?_
      unfold Dict.has at h ⊢
      rw [hsent] at h
      split at h
      · exact h
      · cases h
    · intro j h
      refine w.got j ?_
      unfold Dict.has at h ⊢
      rw [hgot] at h
      split at h
      · exact h
      · cases h
  · intro r hr
    by_cases hm : r ∈ (upTo s k).flatMap PP.reqs
    · exact .inr ⟨.checkpointed, List.mem_map.2 ⟨r, hm, rfl⟩⟩
    refine .inl ?_
    rcases hr with ⟨l, q, hq, hr⟩ | ⟨j, hl, hj, pp, hp, hr⟩
    · refine .inl ⟨l, q.filter (fun r => r ∉ (upTo s k).flatMap PP.reqs), ?_, by simpa [hr] using hm⟩
      have : (gc s k).1.queues.get? l = (s.queues.get? l).map _ := get_map ..
      rw [this, hq]; rfl
    · have hlk : later k j = true := by
        cases e : later k j
        · refine absurd (List.mem_flatMap.2 ⟨pp, ?_, hr⟩) hm
          exact List.mem_filterMap.2 ⟨(j, pp), pp_mem hp, by simp [e]⟩
        · rfl
      refine .inr ⟨j, hl, ?_, pp, ?_, hr⟩
      · unfold Dict.has
        rw [hb, if_pos (by simp [hlk])]
        exact hj
      · unfold St.pp Dict.has at hp ⊢
        rw [hsent, hgot, if_pos hlk, if_pos hlk]
        exact hp

theorem caughtUpOne_ok (x : St × List Out) (e : K3 × PP) (w : W x.1) :
    W (caughtUpOne x e).1 ∧ (∀ r, Queued x.1 r → Queued (caughtUpOne x e).1 r ∨ r ∈ e.2.reqs) ∧
    (∀ j r, j ≠ e.1 → InBatch x.1 j r → InBatch (caughtUpOne x e).1 j r) ∧
    (caughtUpOne x e).2 = x.2 ++ e.2.reqs.map (fun r => .left r .caughtUp) := by
  obtain ⟨s, o⟩ := x
  have hw : W { s with batches := s.batches.erase e.1, sent := s.sent.erase e.1, got := s.got.erase e.1 } := by
    refine ⟨?_, ?_, ?_, w.ordered, Dict.nodup_keys_erase w.nodup _, ?_, ?_⟩
    · intro k h; dsimp only at h; rw [has_erase] at h; simp at h; exact w.view k h.2
    · intro k h; dsimp only at h; rw [has_erase] at h; simp at h; exact w.last k h.2
    · intro k l h; dsimp only at h
      rw [get_erase] at h
      split at h
      · cases h
      · exact w.ledger k l h
    · intro k h; dsimp only at h; rw [has_erase] at h; simp at h; exact w.sent k h.2
    · intro k h; dsimp only at h; rw [has_erase] at h; simp at h; exact w.got k h.2
  obtain ⟨h1, h2, h3⟩ := discardAll_fields e.2.ledger e.2.reqs
    { s with batches := s.batches.erase e.1, sent := s.sent.erase e.1, got := s.got.erase e.1 }
  refine ⟨hw.of_same h1 h2 h3, ?_, ?_, rfl⟩
  · intro r hr
    exact discardAll_queued e.2.ledger e.2.reqs
      { s with batches := s.batches.erase e.1, sent := s.sent.erase e.1, got := s.got.erase e.1 } hr
  · intro j r hj hi
    refine h1.inBatch h2 ?_
    obtain ⟨a, b, pp, hp, hr⟩ := hi
    refine ⟨a, by dsimp only at b ⊢; rw [has_erase, b]; simp [hj], pp, ?_, hr⟩
    unfold St.pp at hp ⊢
    dsimp only at hp ⊢
    rw [has_erase, get_erase, get_erase]
    simp only [hj, decide_false, Bool.not_false, Bool.true_and, if_false]
    exact hp

theorem caughtUpAll_ok (es : List (K3 × PP)) : ∀ (x : St × List Out), W x.1 →
    W (es.foldl caughtUpOne x).1 ∧
    (∀ r, (∃ e ∈ es, r ∈ e.2.reqs) → Out.left r .caughtUp ∈ (es.foldl caughtUpOne x).2) ∧
    (∀ a, a ∈ x.2 → a ∈ (es.foldl caughtUpOne x).2) ∧
    (∀ r, Queued x.1 r → Queued (es.foldl caughtUpOne x).1 r ∨ ∃ e ∈ es, r ∈ e.2.reqs) ∧
    (∀ j r, (∀ e ∈ es, e.1 ≠ j) → InBatch x.1 j r → InBatch (es.foldl caughtUpOne x).1 j r) := by
  induction es with
  | nil => intro x w; exact ⟨w, by simp, fun _ h => h, fun _ h => .inl h, fun _ _ _ h => h⟩
  | cons e es ih =>
    intro x w
    obtain ⟨h1, h2, h3, h4⟩ := caughtUpOne_ok x e w
    obtain ⟨g1, g2, g3, g4, g5⟩ := ih _ h1
    refine ⟨g1, ?_, fun a ha => g3 a (by rw [h4]; exact List.mem_append_left _ ha), ?_, ?_⟩
    · rintro r ⟨e', he, hr⟩
      rcases List.mem_cons.1 he with rfl | he
      · exact g3 _ (by rw [h4]; exact List.mem_append_right _ (List.mem_map.2 ⟨r, hr, rfl⟩))
      · exact g2 r ⟨e', he, hr⟩
    · intro r hr
      rcases h2 r hr with h | h
      · rcases g4 r h with h | ⟨e', he, hr⟩
        · exact .inl h
        · exact .inr ⟨e', List.mem_cons_of_mem _ he, hr⟩
      · exact .inr ⟨e, List.mem_cons_self, h⟩
    · intro j r hne hi
      exact g5 j r (fun e' he => hne e' (List.mem_cons_of_mem _ he)) (h3 j r (fun h => hne e List.mem_cons_self h.symm) hi)

theorem caughtUp_ok (c : Cfg) (hc : c.master = true) (s : St) (k : K3) (w : W s) :
    W (caughtUp c s k).1 ∧ Kept s (caughtUp c s k).1 (caughtUp c s k).2 := by
  unfold caughtUp
  rw [hc, if_pos rfl]
  split
  · rename_i hk
    obtain ⟨g1, g2, g3, g4, g5⟩ := caughtUpAll_ok
      ((s.got.filter (fun e => !later k e.1 && !s.sent.has e.1)) ++ s.sent.filter (fun e => !later k e.1))
      (setOrdered s k, []) (setOrdered_W w k hk)
    refine ⟨g1, ?_⟩
    intro r hr
    rcases hr with hr | ⟨j, hl, hj, pp, hp, hr⟩
    · rcases g4 r hr with h | h
      · exact .inl (.inl h)
      · exact .inr ⟨_, g2 r h⟩
    · by_cases hkj : later k j = true
      · refine .inl (.inr ⟨j, g5 j r ?_ ⟨hkj, hj, pp, hp, hr⟩⟩)
        rintro e he rfl
        simp [List.mem_append, List.mem_filter, hkj] at he
      · refine .inr ⟨_, g2 r ⟨(j, pp), ?_, hr⟩⟩
        simp only [Bool.not_eq_true] at hkj
        unfold St.pp at hp
        split at hp
        · exact List.mem_append_right _ (List.mem_filter.2 ⟨Dict.mem_of_get? hp, by simp [hkj]⟩)
        · rename_i hs
          exact List.mem_append_left _ (List.mem_filter.2 ⟨Dict.mem_of_get? hp, by simpa [hkj] using hs⟩)
  · exact ⟨w, Kept.refl _ _⟩

theorem caughtUp_W (c : Cfg) (s : St) (k : K3) (w : W s) : W (caughtUp c s k).1 := by
  cases hc : c.master
  · unfold caughtUp
    rw [hc]
    split
    · simp only [Bool.false_eq_true, if_false]
      split
      · exact w
      · exact ⟨w.view, w.last, w.ledger, w.ordered, w.nodup, fun k h => by simp [Dict.has, Dict.get?] at h,
          fun k h => by simp [Dict.has, Dict.get?] at h⟩
    · exact w
  · exact (caughtUp_ok c hc s k w).1

theorem accept_ok (s : St) (pp : PP) (w : W s) : W (accept s pp) ∧ Kept s (accept s pp) [] := by
  unfold accept
  split
  · rename_i hg
    simp only [Bool.and_eq_true, decide_eq_true_eq, Bool.not_eq_true'] at hg
    obtain ⟨⟨⟨⟨hv, hp⟩, hb⟩, hq⟩, _⟩ := hg
    have hpp : s.pp pp.key = none := by simpa using hp
    dsimp only
    have w1 : W { s with batches := s.batches.set pp.key pp.ledger, lastPp := max s.lastPp pp.key.2 } := by
      refine ⟨?_, ?_, ?_, ?_, Dict.nodup_keys_set w.nodup _ _, w.sent, w.got⟩
      · intro k hk
        dsimp only at hk ⊢
        rw [has_set] at hk
        by_cases e : k = pp.key
        · rw [e]; exact hv
        · simp [e] at hk; exact w.view k hk
      · intro k hk hl
        dsimp only at hk hl ⊢
        rw [has_set] at hk
        by_cases e : k = pp.key
        · rw [e]; omega
        · simp [e] at hk; have := w.last k hk hl; omega
      · intro k l hl
        dsimp only at hl ⊢
        rw [get_set] at hl
        split at hl
        · cases hl; exact hq
        · exact w.ledger k l hl
      · have := w.ordered; dsimp only; omega
    have hne : ∀ k r, InBatch s k r → k ≠ pp.key := by
      rintro k r ⟨_, _, p, h, _⟩ rfl
      rw [hpp] at h; cases h
    split
    · refine ⟨⟨w1.view, w1.last, w1.ledger, w1.ordered, w1.nodup, ?_, w1.got⟩, ?_⟩
      · intro k hk
        dsimp only at hk ⊢
        rw [has_set] at hk
        by_cases e : k = pp.key
        · rw [e]; exact hv
        · simp [e] at hk; exact w.sent k hk
      · intro r hr
        rcases hr with hr | ⟨k, hk⟩
        · exact .inl (.inl hr)
        · have e := hne k r hk
          obtain ⟨a, b, p, h, hr⟩ := hk
          refine .inl (.inr ⟨k, a, by dsimp only; rw [has_set, b]; simp, p, ?_, hr⟩)
          unfold St.pp at h ⊢
          dsimp only
          rw [has_set, get_set]
          simp only [e, decide_false, Bool.false_or, if_false]
          exact h
    · refine ⟨⟨w1.view, w1.last, w1.ledger, w1.ordered, w1.nodup, w1.sent, ?_⟩, ?_⟩
      · intro k hk
        dsimp only at hk ⊢
        rw [has_set] at hk
        by_cases e : k = pp.key
        · rw [e]; exact hv
        · simp [e] at hk; exact w.got k hk
      · intro r hr
        rcases hr with hr | ⟨k, hk⟩
        · exact .inl (.inl hr)
        · have e := hne k r hk
          obtain ⟨a, b, p, h, hr⟩ := hk
          refine .inl (.inr ⟨k, a, by dsimp only; rw [has_set, b]; simp, p, ?_, hr⟩)
          unfold St.pp at h ⊢
          dsimp only
          rw [get_set]
          simp only [e, if_false]
          exact h
  · exact ⟨w, Kept.refl _ _⟩

theorem ready_ok {c : Cfg} {s : St} {a : Req} {x : St × List Out} (h : ready c s a = some x) (w : W s) :
    W x.1 ∧ Kept s x.1 x.2 ∧ ∀ r, Out.queued r ∈ x.2 → Queued x.1 r := by
  unfold ready at h
  split at h
  · cases h; exact ⟨w, Kept.refl _ _, by simp⟩
  · cases h
  · split at h
    · cases h
    · rename_i q hq
      cases h
      have hs : Same s { s with queues := s.queues.set (c.ledgerOf a) (addQ q a) } := by
        refine ⟨rfl, rfl, rfl, rfl, rfl, fun l => ?_, keys_set _ _ _ (by simp [Dict.has, hq])⟩
        dsimp only; rw [has_set]
        by_cases e : l = c.ledgerOf a
        · rw [e]; simp [Dict.has, hq]
        · simp [e]
      refine ⟨w.of_same hs rfl rfl, ?_, ?_⟩
      · intro r hr
        rcases hr with hr | ⟨k, hk⟩
        · exact .inl (.inl (queued_set hq (fun r hr => addQ_mem.2 (.inl hr)) hr))
        · exact .inl (.inr ⟨k, hk⟩)
      · intro r hr
        simp at hr; subst hr
        exact ⟨c.ledgerOf r, addQ q r, by dsimp only; rw [get_set]; simp, addQ_mem.2 (.inr rfl)⟩

theorem queued_iff {s s' : St} (h : s'.queues = s.queues) (r : Req) : Queued s' r ↔ Queued s r := by
  unfold Queued; rw [h]

theorem clearAll_W {s : St} (w : W s) (v : Nat) : W { clearAll s with view := v } := by
  refine ⟨?_, ?_, ?_, w.ordered, by simp [clearAll, Dict.keys], ?_, ?_⟩ <;> intro k <;> simp [clearAll, Dict.has]

theorem step_W {c : Cfg} {s : St} {e : Ev} {x : St × List Out} (h : step c s e = some x) (w : W s) : W x.1 := by
  cases e with
  | propagated r =>
    cases h
    simp only [propagated]
    split
    · exact w
    · exact ⟨w.1, w.2, w.3, w.4, w.5, w.6, w.7⟩
  | finalised r => cases h; exact ⟨w.1, w.2, w.3, w.4, w.5, w.6, w.7⟩
  | forgotten r => cases h; exact ⟨w.1, w.2, w.3, w.4, w.5, w.6, w.7⟩
  | ready r => exact (ready_ok h w).1
  | set => cases h; exact ⟨w.1, w.2, w.3, w.4, w.5, w.6, w.7⟩
  | tick now old v => exact (tick_ok h w).1
  | accept pp => cases h; exact (accept_ok s pp w).1
  | order k => cases h; exact (order_ok s k w).1
  | revert => cases h; exact revert_W w
  | viewChange v =>
    cases h
    unfold viewChange
    split
    · exact clearAll_W (revert_W w) v
    · exact clearAll_W w v
  | gc k => cases h; exact (gc_ok s k w).1
  | caughtUp k => cases h; exact caughtUp_W c s k w
  | fetched l r => cases h; obtain ⟨h1, h2, h3⟩ := discard_fields s l r; exact w.of_same h1 h2 h3

theorem step_kept {c : Cfg} (hc : c.master = true) {s : St} {e : Ev} {x : St × List Out} (h : step c s e = some x) (w : W s) :
    Kept s x.1 x.2 ∧ ∀ r, Out.queued r ∈ x.2 → Held x.1 r := by
  have same : ∀ {s' : St}, s'.queues = s.queues → s'.batches = s.batches → s'.lastOrdered = s.lastOrdered → s'.sent = s.sent →
      s'.got = s.got → Kept s s' [] := by
    intro s' h1 h2 h3 h4 h5 r hr
    refine .inl ?_
    unfold Held Queued InBatch St.pp at hr ⊢
    rw [h1, h2, h3, h4, h5]; exact hr
  have none : ∀ {s' : St}, ∀ r, Out.queued r ∈ ([] : List Out) → Held s' r := by intro s' r h; simp at h
  cases e with
  | propagated r =>
    cases h
    refine ⟨?_, none⟩
    simp only [propagated]
    split
    · exact Kept.refl _ _
    · exact same rfl rfl rfl rfl rfl
  | finalised r => cases h; exact ⟨same rfl rfl rfl rfl rfl, none⟩
  | forgotten r => cases h; exact ⟨same rfl rfl rfl rfl rfl, none⟩
  | ready r => exact ⟨(ready_ok h w).2.1, fun r hr => .inl ((ready_ok h w).2.2 r hr)⟩
  | set => cases h; exact ⟨same rfl rfl rfl rfl rfl, none⟩
  | tick now old v =>
    refine ⟨(tick_ok h w).2, fun r hr => ?_⟩
    rcases tick_outs h _ hr with ⟨_, _, h⟩ | ⟨_, h⟩ <;> cases h
  | accept pp => cases h; exact ⟨(accept_ok s pp w).2, none⟩
  | order k =>
    cases h
    refine ⟨(order_ok s k w).2, ?_⟩
    intro r hr
    unfold order at hr
    split at hr
    · simp at hr
    · split at hr <;> simp at hr
  | revert => cases h; exact ⟨fun r hr => .inl (.inl (revert_queued w hr)), none⟩
  | viewChange v =>
    cases h
    refine ⟨fun r hr => .inl (.inl ?_), none⟩
    unfold viewChange
    rw [if_pos hc]
    exact revert_queued w hr
  | gc k => cases h; exact ⟨(gc_ok s k w).2, by intro r hr; simp [gc] at hr⟩
  | caughtUp k =>
    cases h
    refine ⟨(caughtUp_ok c hc s k w).2, ?_⟩
    intro r hr
    obtain ⟨_, _, h⟩ := caughtUp_outs c s k _ hr
    cases h
  | fetched l r => cases h; exact ⟨discardAll_kept s l [r] .caughtUp, by intro r hr; simp at hr⟩


theorem start_W (ls : List Nat) : W (start ls) := by
  refine ⟨?_, ?_, ?_, Nat.le_refl _, by simp [start, Dict.keys], ?_, ?_⟩ <;> intro k <;> simp [start, Dict.has]

theorem run_W {c : Cfg} : ∀ {es : List Ev} {s : St} {x : St × List Out}, run c s es = some x → W s → W x.1 := by
  intro es
  induction es with
  | nil => intro s x h w; simp only [run, Option.some.injEq] at h; subst h; exact w
  | cons e es ih =>
    intro s x h w
    rw [run] at h
    split at h
    · cases h
    · rename_i a ha
      split at h
      · cases h
      · rename_i b hb
        cases h
        exact (ih hb (step_W ha w) : W b.1)

theorem run_kept {c : Cfg} (hc : c.master = true) : ∀ {es : List Ev} {s : St} {x : St × List Out}, run c s es = some x → W s →
    Kept s x.1 x.2 ∧ ∀ r, Out.queued r ∈ x.2 → Held x.1 r ∨ ∃ why, Out.left r why ∈ x.2 := by
  intro es
  induction es with
  | nil =>
    intro s x h w; simp only [run, Option.some.injEq] at h; subst h
    exact ⟨Kept.refl _ _, by intro r h; simp at h⟩
  | cons e es ih =>
    intro s x h w
    rw [run] at h
    split at h
    · cases h
    · rename_i a ha
      split at h
      · cases h
      · rename_i b hb
        cases h
        obtain ⟨h1, h2⟩ := step_kept hc ha w
        obtain ⟨g1, g2⟩ := ih hb (step_W ha w)
        refine ⟨h1.trans g1, ?_⟩
        intro r hr
        rcases List.mem_append.1 hr with hr | hr
        · rcases g1 r (h2 r hr) with h | ⟨w, h⟩
          · exact .inl h
          · exact .inr ⟨w, List.mem_append_right _ h⟩
        · rcases g2 r hr with h | ⟨w, h⟩
          · exact .inl h
          · exact .inr ⟨w, List.mem_append_right _ h⟩

end Verif.ReqQueue
