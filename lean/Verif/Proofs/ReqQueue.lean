import Verif.Model.ReqQueue
import Verif.Proofs.Count
/-! Lemmas on the queues of requests: what is taken out of a queue, what a revert gives back. -/
namespace Verif.ReqQueue
open Verif

/-- A request is in a queue. -/
def Queued (s : St) (r : Req) : Prop := ∃ l q, s.queues.get? l = some q ∧ r ∈ q

/-- A request is in the batch with this key, which is not ordered. -/
def InBatch (s : St) (k : K3) (r : Req) : Prop :=
  later s.lastOrdered k = true ∧ s.batches.has k = true ∧ ∃ pp, s.pp k = some pp ∧ r ∈ pp.reqs

theorem addQ_mem {q : List Req} {a r : Req} : r ∈ addQ q a ↔ r ∈ q ∨ r = a := by
  unfold addQ
  split
  · constructor
    · exact .inl
    · rintro (h | rfl) <;> assumption
  · simp

theorem foldl_addQ_mem (rs : List Req) : ∀ (q : List Req) {r : Req}, r ∈ rs.foldl addQ q ↔ r ∈ q ∨ r ∈ rs := by
  induction rs with
  | nil => intro q r; simp
  | cons a rs ih => intro q r; rw [List.foldl_cons, ih, addQ_mem]; simp [or_assoc]

theorem addQ_nodup {q : List Req} {a : Req} (h : q.Nodup) : (addQ q a).Nodup := by
  unfold addQ
  split
  · exact h
  · rename_i hn
    exact List.nodup_append.2 ⟨h, by simp, by rintro x hx y hy rfl; simp at hy; exact hn (hy ▸ hx)⟩

theorem foldl_addQ_nodup (rs : List Req) : ∀ {q : List Req}, q.Nodup → (rs.foldl addQ q).Nodup := by
  induction rs with
  | nil => intro q h; exact h
  | cons a rs ih => intro q h; exact ih (addQ_nodup h)

/-- What `consume` takes out of a queue. -/
structure Took (n : Nat) (reqs : Dict Req Bool) (v : List Req → Req → Verdict) (q : List Req) (t0 t : Taken) : Prop where
  split : ∃ used, q = used ++ t.rest ∧ (∃ new, t.reqs = t0.reqs ++ new ∧ new.Sublist used) ∧
    (∀ r ∈ used, reqs.get? r ≠ some false) ∧
    ∀ r ∈ used, r ∈ t.reqs ∨ (∃ why, (r, why) ∈ t.gone)
  size : t0.reqs.length ≤ n → t.reqs.length ≤ n
  full : n ≤ t.reqs.length ∨ t.rest = []
  known : ∀ r ∈ t.reqs, r ∈ t0.reqs ∨ (r ∈ q ∧ reqs.get? r = some true)
  gone0 : ∃ g, t.gone = t0.gone ++ g ∧ ∀ e ∈ g, e.1 ∈ q ∧ (e.2 = .forgotten ∧ reqs.get? e.1 = none ∨ e.2 = .already ∧ ∃ b, v b e.1 = .suspicious)

theorem consume_took (n : Nat) (reqs : Dict Req Bool) (v : List Req → Req → Verdict) :
    ∀ (q : List Req) (t0 t : Taken), consume n reqs v q t0 = some t → Took n reqs v q t0 t := by
  intro q
  induction q with
  | nil =>
    intro t0 t h
    simp only [consume, Option.some.injEq] at h
    subst h
    exact ⟨⟨[], rfl, ⟨[], by simp, by simp⟩, by simp, by simp⟩, fun h => h, .inr rfl, fun r hr => .inl hr,
      ⟨[], by simp, by simp⟩⟩
  | cons a q ih =>
    intro t0 t h
    rw [consume] at h
    split at h
    · rename_i hlen
      split at h
      · rename_i hg
        have := ih _ _ h
        obtain ⟨⟨used, h1, ⟨new, h2, h3⟩, h4, h5⟩, h6, h7, h8, ⟨g, h9, h10⟩⟩ := this
        refine ⟨⟨a :: used, by rw [h1]; rfl, ⟨new, h2, h3.cons a⟩, ?_, ?_⟩, h6, h7, ?_, ?_⟩
        · intro r hr
          rcases List.mem_cons.1 hr with rfl | hr
          · rw [hg]; simp
          · exact h4 r hr
        · intro r hr
          rcases List.mem_cons.1 hr with rfl | hr
          · exact .inr ⟨.forgotten, by rw [h9]; simp⟩
          · exact h5 r hr
        · intro r hr
          rcases h8 r hr with h | ⟨h, h'⟩
          · exact .inl h
          · exact .inr ⟨List.mem_cons_of_mem _ h, h'⟩
        · refine ⟨(a, .forgotten) :: g, by rw [h9]; simp, ?_⟩
          intro e he
          rcases List.mem_cons.1 he with rfl | he
          · exact ⟨List.mem_cons_self, .inl ⟨rfl, hg⟩⟩
          · exact ⟨List.mem_cons_of_mem _ (h10 e he).1, (h10 e he).2⟩
      · cases h
      · rename_i hg
        have key : ∀ bad, consume n reqs v q { t0 with reqs := t0.reqs ++ [a], bad := bad } = some t →
            Took n reqs v (a :: q) t0 t := by
          intro bad h
          have := ih _ _ h
          obtain ⟨⟨used, h1, ⟨new, h2, h3⟩, h4, h5⟩, h6, h7, h8, ⟨g, h9, h10⟩⟩ := this
          refine ⟨⟨a :: used, by rw [h1]; rfl, ⟨a :: new, by rw [h2]; simp, h3.cons_cons a⟩, ?_, ?_⟩, ?_, h7, ?_, ?_⟩
          · intro r hr
            rcases List.mem_cons.1 hr with rfl | hr
            · rw [hg]; simp
            · exact h4 r hr
          · intro r hr
            rcases List.mem_cons.1 hr with rfl | hr
            · exact .inl (by rw [h2]; simp)
            · exact h5 r hr
          · intro _; apply h6; simp; omega
          · intro r hr
            rcases h8 r hr with h | ⟨h, h'⟩
            · rcases List.mem_append.1 h with h | h
              · exact .inl h
              · simp at h; subst h; exact .inr ⟨List.mem_cons_self, hg⟩
            · exact .inr ⟨List.mem_cons_of_mem _ h, h'⟩
          · exact ⟨g, h9, fun e he => ⟨List.mem_cons_of_mem _ (h10 e he).1, (h10 e he).2⟩⟩
        split at h
        · exact key _ h
        · exact key _ h
        · rename_i hv
          have := ih _ _ h
          obtain ⟨⟨used, h1, ⟨new, h2, h3⟩, h4, h5⟩, h6, h7, h8, ⟨g, h9, h10⟩⟩ := this
          refine ⟨⟨a :: used, by rw [h1]; rfl, ⟨new, h2, h3.cons a⟩, ?_, ?_⟩, h6, h7, ?_, ?_⟩
          · intro r hr
            rcases List.mem_cons.1 hr with rfl | hr
            · rw [hg]; simp
            · exact h4 r hr
          · intro r hr
            rcases List.mem_cons.1 hr with rfl | hr
            · exact .inr ⟨.already, by rw [h9]; simp⟩
            · exact h5 r hr
          · intro r hr
            rcases h8 r hr with h | ⟨h, h'⟩
            · exact .inl h
            · exact .inr ⟨List.mem_cons_of_mem _ h, h'⟩
          · refine ⟨(a, .already) :: g, by rw [h9]; simp, ?_⟩
            intro e he
            rcases List.mem_cons.1 he with rfl | he
            · exact ⟨List.mem_cons_self, .inr ⟨rfl, _, hv⟩⟩
            · exact ⟨List.mem_cons_of_mem _ (h10 e he).1, (h10 e he).2⟩
    · rename_i hlen
      cases h
      exact ⟨⟨[], rfl, ⟨[], by simp, by simp⟩, by simp, by simp⟩, fun h => h, .inl (by simp; omega), fun r hr => .inl hr,
        ⟨[], by simp, by simp⟩⟩

theorem consume_none (n : Nat) (reqs : Dict Req Bool) (v : List Req → Req → Verdict) :
    ∀ (q : List Req) (t0 : Taken), consume n reqs v q t0 = none → ∃ r ∈ q, reqs.get? r = some false := by
  intro q
  induction q with
  | nil => intro t0 h; simp [consume] at h
  | cons a q ih =>
    intro t0 h
    have up : (∃ r ∈ q, reqs.get? r = some false) → ∃ r ∈ a :: q, reqs.get? r = some false :=
      fun ⟨r, h, h'⟩ => ⟨r, List.mem_cons_of_mem _ h, h'⟩
    rw [consume] at h
    split at h
    · split at h
      · exact up (ih _ h)
      · exact ⟨a, List.mem_cons_self, by assumption⟩
      · split at h <;> exact up (ih _ h)
    · cases h


/-! ## Reverting -/

theorem get_set {κ α : Type} [DecidableEq κ] (d : Dict κ α) (k : κ) (v : α) (j : κ) :
    (d.set k v).get? j = if j = k then some v else d.get? j := by
  rw [Dict.get?_set]; by_cases h : k = j
  · simp [h]
  · rw [if_neg h, if_neg (Ne.symm h)]

theorem get_erase {κ α : Type} [DecidableEq κ] (d : Dict κ α) (k : κ) (j : κ) :
    (d.erase k).get? j = if j = k then none else d.get? j := by
  rw [Dict.get?_erase]; by_cases h : k = j
  · simp [h]
  · rw [if_neg h, if_neg (Ne.symm h)]

theorem queued_set {d : Dict Nat (List Req)} {l : Nat} {q q' : List Req} (hq : d.get? l = some q)
    (hsub : ∀ r ∈ q, r ∈ q') {r : Req} (h : ∃ m p, d.get? m = some p ∧ r ∈ p) :
    ∃ m p, (d.set l q').get? m = some p ∧ r ∈ p := by
  obtain ⟨m, p, hm, hr⟩ := h
  by_cases e : m = l
  · subst e
    rw [hq] at hm; cases hm
    exact ⟨m, q', by rw [get_set]; simp, hsub r hr⟩
  · exact ⟨m, p, by rw [get_set, if_neg e]; exact hm, hr⟩

theorem has_set {κ α : Type} [DecidableEq κ] (d : Dict κ α) (k : κ) (v : α) (j : κ) :
    (d.set k v).has j = (decide (j = k) || d.has j) := by
  unfold Dict.has; rw [get_set]; by_cases h : j = k <;> simp [h]

theorem has_erase {κ α : Type} [DecidableEq κ] (d : Dict κ α) (k : κ) (j : κ) :
    (d.erase k).has j = (!decide (j = k) && d.has j) := by
  unfold Dict.has; rw [get_erase]; by_cases h : j = k <;> simp [h]

theorem has_mem_keys {κ α : Type} [DecidableEq κ] (d : Dict κ α) (k : κ) : d.has k = true ↔ k ∈ d.keys := by
  rw [Dict.has_iff, Dict.mem_keys]

/-- What stays when one batch is reverted. -/
structure Same (s s' : St) : Prop where
  sent : s'.sent = s.sent
  got : s'.got = s.got
  view : s'.view = s.view
  lastOrdered : s'.lastOrdered = s.lastOrdered
  reqs : s'.reqs = s.reqs
  hasQ : ∀ l, s'.queues.has l = s.queues.has l
  keysQ : s'.queues.keys = s.queues.keys

theorem keys_set {κ α : Type} [DecidableEq κ] (d : Dict κ α) (k : κ) (v : α) (h : d.has k = true) : (d.set k v).keys = d.keys := by
  induction d with
  | nil => simp [Dict.has, Dict.get?] at h
  | cons e d ih =>
    rw [Dict.set]
    split
    · rename_i he; simp [Dict.keys, he]
    · rename_i he
      have : Dict.has d k = true := by
        unfold Dict.has at h ⊢
        rw [Dict.get?_cons] at h
        simpa [he] using h
      have := ih this
      simp only [Dict.keys, List.map_cons] at this ⊢
      rw [this]

theorem revertOne_same (s : St) (k : K3) : Same s (revertOne s k) := by
  unfold revertOne
  split
  · exact ⟨rfl, rfl, rfl, rfl, rfl, fun _ => rfl, rfl⟩
  · dsimp only
    split
    · exact ⟨rfl, rfl, rfl, rfl, rfl, fun _ => rfl, rfl⟩
    · split
      · exact ⟨rfl, rfl, rfl, rfl, rfl, fun _ => rfl, rfl⟩
      · rename_i m _ _ _ _ _ q hq
        refine ⟨rfl, rfl, rfl, rfl, rfl, fun l => ?_, keys_set _ _ _ (by simp [Dict.has, hq])⟩
        rw [has_set]
        by_cases e : l = m
        · subst e; simp [Dict.has, hq]
        · simp [e]

theorem revertOne_batches (s : St) (k j : K3) :
    (revertOne s k).batches.get? j = if j = k then none else s.batches.get? j := by
  unfold revertOne
  split
  · rename_i h
    split
    · rename_i e; subst e; exact h
    · rfl
  · dsimp only
    split
    · exact get_erase s.batches k j
    · split <;> exact get_erase s.batches k j

theorem revertOne_lastPp (s : St) (k : K3) : s.lastPp ≤ (revertOne s k).lastPp + 1 ∧ (revertOne s k).lastPp ≤ s.lastPp := by
  unfold revertOne
  split
  · exact ⟨by omega, by omega⟩
  · dsimp only
    split
    · exact ⟨by dsimp only; omega, by dsimp only; omega⟩
    · split <;> exact ⟨by dsimp only; omega, by dsimp only; omega⟩

theorem revertOne_nodup (s : St) (k : K3) (h : s.batches.keys.Nodup) : (revertOne s k).batches.keys.Nodup := by
  unfold revertOne
  split
  · exact h
  · dsimp only
    split
    · exact Dict.nodup_keys_erase h _
    · split <;> exact Dict.nodup_keys_erase h _

theorem revertOne_queued (s : St) (k : K3) {r : Req} (h : Queued s r) : Queued (revertOne s k) r := by
  unfold revertOne
  split
  · exact h
  · dsimp only
    split
    · exact h
    · split
      · exact h
      · rename_i hq
        exact queued_set hq (fun r hr => (foldl_addQ_mem _ _).2 (.inl hr)) h

theorem Same.pp {s s' : St} (h : Same s s') (k : K3) : s'.pp k = s.pp k := by unfold St.pp; rw [h.sent, h.got]

/-- A batch which is reverted gives its requests back. -/
theorem revertOne_gives (s : St) (k : K3) (w : ∀ l, s.batches.get? k = some l → s.queues.has l = true) {r : Req}
    (h : InBatch s k r) : Queued (revertOne s k) r := by
  obtain ⟨_, hb, pp, hp, hr⟩ := h
  obtain ⟨l, hl⟩ := (Dict.has_iff _ _).1 hb
  obtain ⟨q, hq⟩ := (Dict.has_iff _ _).1 (w l hl)
  unfold revertOne
  rw [hl]; dsimp only; rw [hp]; dsimp only; rw [hq]; dsimp only
  exact ⟨l, _, by rw [get_set]; simp; rfl, (foldl_addQ_mem _ _).2 (.inr hr)⟩

theorem revertOne_other (s : St) (k j : K3) (hj : j ≠ k) {r : Req} (h : InBatch s j r) : InBatch (revertOne s k) j r := by
  obtain ⟨h1, hb, pp, hp, hr⟩ := h
  have hs := revertOne_same s k
  refine ⟨by rw [hs.lastOrdered]; exact h1, ?_, pp, by rw [hs.pp]; exact hp, hr⟩
  unfold Dict.has at hb ⊢
  rw [revertOne_batches, if_neg hj]; exact hb

/-- Reverting the batches of a list of keys. -/
theorem revertKeys (ks : List K3) : ∀ (s : St),
    Same s (ks.foldl revertOne s) ∧
    (∀ j, (ks.foldl revertOne s).batches.get? j = if j ∈ ks then none else s.batches.get? j) ∧
    s.lastPp ≤ (ks.foldl revertOne s).lastPp + ks.length ∧
    (s.batches.keys.Nodup → (ks.foldl revertOne s).batches.keys.Nodup) ∧
    (∀ r, Queued s r → Queued (ks.foldl revertOne s) r) ∧
    ((∀ k l, s.batches.get? k = some l → s.queues.has l = true) →
      ∀ k r, k ∈ ks → InBatch s k r → Queued (ks.foldl revertOne s) r) := by
  induction ks with
  | nil =>
    intro s
    exact ⟨⟨rfl, rfl, rfl, rfl, rfl, fun _ => rfl, rfl⟩, fun j => by simp, by simp, fun h => h, fun r h => h,
      fun _ k r hk => by simp at hk⟩
  | cons a ks ih =>
    intro s
    obtain ⟨h1, h2, h3, h4, h5, h6⟩ := ih (revertOne s a)
    have hs := revertOne_same s a
    rw [List.foldl_cons]
    refine ⟨⟨h1.sent.trans hs.sent, h1.got.trans hs.got, h1.view.trans hs.view, h1.lastOrdered.trans hs.lastOrdered,
      h1.reqs.trans hs.reqs, fun l => (h1.hasQ l).trans (hs.hasQ l), h1.keysQ.trans hs.keysQ⟩, ?_, ?_, fun h => h4 (revertOne_nodup s a h),
      fun r h => h5 r (revertOne_queued s a h), ?_⟩
    · intro j
      rw [h2, revertOne_batches]
      by_cases e : j = a <;> by_cases e' : j ∈ ks <;> simp [e, e']
    · have := (revertOne_lastPp s a).1
      simp only [List.length_cons]; omega
    · intro w k r hk hin
      by_cases e : k = a
      · subst e
        exact h5 r (revertOne_gives s k (fun l => w k l) hin)
      · have hk' : k ∈ ks := (List.mem_cons.1 hk).resolve_left e
        refine h6 ?_ k r hk' (revertOne_other s a k e hin)
        intro k' l hl
        rw [hs.hasQ]
        rw [revertOne_batches] at hl
        split at hl
        · cases hl
        · exact w k' l hl

theorem insertDown_mem {k j : K3} : ∀ {ks : List K3}, j ∈ insertDown k ks ↔ j = k ∨ j ∈ ks := by
  intro ks
  induction ks with
  | nil => simp [insertDown]
  | cons a ks ih =>
    rw [insertDown]
    split
    · simp [ih, or_left_comm]
    · simp

theorem sortDown_mem {j : K3} : ∀ {ks : List K3}, j ∈ sortDown ks ↔ j ∈ ks := by
  intro ks
  induction ks with
  | nil => simp [sortDown]
  | cons a ks ih => rw [sortDown, insertDown_mem, ih]; simp

theorem insertDown_perm (k : K3) : ∀ ks : List K3, (insertDown k ks).Perm (k :: ks) := by
  intro ks
  induction ks with
  | nil => simp [insertDown]
  | cons a ks ih =>
    rw [insertDown]
    split
    · exact (List.Perm.cons a ih).trans (List.Perm.swap k a ks)
    · exact List.Perm.refl _

theorem sortDown_perm : ∀ ks : List K3, (sortDown ks).Perm ks := by
  intro ks
  induction ks with
  | nil => exact List.Perm.refl _
  | cons a ks ih => exact (insertDown_perm a _).trans (List.Perm.cons a ih)

/-- In one view, sorted downwards means by falling numbers. -/
theorem insertDown_sorted (v : Nat) (k : K3) (hk : k.1 = v) : ∀ {ks : List K3}, (∀ j ∈ ks, j.1 = v) →
    ks.Pairwise (fun a b => b.2 ≤ a.2) → (insertDown k ks).Pairwise (fun a b => b.2 ≤ a.2) := by
  intro ks
  induction ks with
  | nil => intro _ _; simp [insertDown]
  | cons a ks ih =>
    intro hv hp
    have ha := hv a List.mem_cons_self
    rw [insertDown]
    rw [List.pairwise_cons] at hp
    split
    · rename_i h
      simp [pairLt, hk, ha] at h
      rw [List.pairwise_cons]
      refine ⟨?_, ih (fun j hj => hv j (List.mem_cons_of_mem _ hj)) hp.2⟩
      intro j hj
      rcases insertDown_mem.1 hj with rfl | hj
      · omega
      · exact hp.1 j hj
    · rename_i h
      simp [pairLt, hk, ha] at h
      rw [List.pairwise_cons]
      refine ⟨?_, List.pairwise_cons.2 hp⟩
      intro j hj
      rcases List.mem_cons.1 hj with rfl | hj
      · exact h
      · have := hp.1 j hj; omega

theorem sortDown_sorted (v : Nat) : ∀ {ks : List K3}, (∀ j ∈ ks, j.1 = v) → (sortDown ks).Pairwise (fun a b => b.2 ≤ a.2) := by
  intro ks
  induction ks with
  | nil => intro _; simp [sortDown]
  | cons a ks ih =>
    intro hv
    exact insertDown_sorted v a (hv a List.mem_cons_self) (fun j hj => hv j (List.mem_cons_of_mem _ (sortDown_mem.1 hj)))
      (ih fun j hj => hv j (List.mem_cons_of_mem _ hj))

theorem takeWhile_sorted (o : K3) : ∀ {ks : List K3}, ks.Pairwise (fun a b => b.2 ≤ a.2) → ∀ {k}, k ∈ ks → later o k = true →
    k ∈ ks.takeWhile (fun k => later o k) := by
  intro ks
  induction ks with
  | nil => intro _ k hk; simp at hk
  | cons a ks ih =>
    intro hp k hk hl
    rw [List.pairwise_cons] at hp
    rcases List.mem_cons.1 hk with rfl | hk
    · rw [List.takeWhile_cons, if_pos hl]; exact List.mem_cons_self
    · have : later o a = true := by
        have := hp.1 k hk
        simp [later] at hl ⊢; omega
      rw [List.takeWhile_cons, if_pos this]
      exact List.mem_cons_of_mem _ (ih hp.2 hk hl)

end Verif.ReqQueue
